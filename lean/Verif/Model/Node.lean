import Verif.Model.Text
import Verif.Base.AMap
/-
Model of /repo/src/definition/base/node.rs and /repo/src/definition/base/yaml.rs.
-/
namespace Podo
namespace Def
open Text

/-- Why reading a definition ends without a result: an error value or a panic.  What the errors say is
left out here and added in `Verif.Model.DdlErrors`. -/
inductive Fail where
  | error
  | panic
deriving DecidableEq, Repr

/-- /repo/src/definition/base/node.rs:188-191 `Number`.  Simplified: a float is its bit pattern; an
`i64` is an integer. -/
inductive Num where
  | integer (i : Int)
  | float (bits : Nat)
deriving DecidableEq, Repr

/-- /repo/src/definition/base/node.rs:114-119 `Value`. -/
inductive Value where
  | boolean (b : Bool)
  | string (s : String)
  | number (n : Num)
  | list (vs : List Value)
deriving Repr

/-- /repo/src/definition/base/node.rs:2-6 `Node` with 93-96 `NodeChild`: a leaf has no child or a value
as child, a branch has nodes. -/
inductive Node where
  | leaf (kind : String) (name : Option String) (child : Option Value)
  | branch (kind : String) (name : Option String) (nodes : List Node)
deriving Repr

namespace Value
/-- /repo/src/definition/base/node.rs:141-146 `to_string`. -/
def toStr : Value → Option String
  | .string s => some s
  | _ => none

/-- The loop of /repo/src/definition/base/node.rs:150-153. -/
def toStrs : List Value → Option (List String)
  | [] => some []
  | v :: vs =>
    match v.toStr with
    | none => none
    | some s =>
      match toStrs vs with
      | none => none
      | some ss => some (s :: ss)

/-- /repo/src/definition/base/node.rs:147-161 `to_string_varargs`. -/
def toVarargs : Value → Option (List String)
  | .list vs => toStrs vs
  | .string s => some [s]
  | _ => none

/-- /repo/src/definition/base/node.rs:122-127 `to_boolean`. -/
def toBool : Value → Option Bool
  | .boolean b => some b
  | _ => none

/-- /repo/src/definition/base/node.rs:129-134 `to_number_integer` with 194-199 `to_integer`. -/
def toInt : Value → Option Int
  | .number (.integer i) => some i
  | _ => none

/-- /repo/src/definition/base/node.rs:175-184 `from_string_varargs`. -/
def ofVarargs : List String → Value
  | [s] => .string s
  | ss => .list (ss.map .string)
end Value

namespace Node
/-- The field `type` (/repo/src/definition/base/node.rs:3). -/
def kind : Node → String
  | .leaf k _ _ => k
  | .branch k _ _ => k

/-- /repo/src/definition/base/node.rs:27-29 `get_name`. -/
def name : Node → Option String
  | .leaf _ n _ => n
  | .branch _ n _ => n

/-- The value of a node that has one. -/
def value : Node → Option Value
  | .leaf _ _ v => v
  | .branch .. => none

/-- /repo/src/definition/base/node.rs:30-35 `get_nodes`. -/
def nodes : Node → Option (List Node)
  | .leaf _ _ none => some []
  | .leaf _ _ (some _) => none
  | .branch _ _ ns => some ns

/-- /repo/src/definition/base/node.rs:36-38 `get_boolean_value`. -/
def bool (n : Node) : Option Bool := n.value.bind Value.toBool
/-- /repo/src/definition/base/node.rs:39-41 `get_number_integer_value`. -/
def int (n : Node) : Option Int := n.value.bind Value.toInt
/-- /repo/src/definition/base/node.rs:45-47 `get_string_value`. -/
def str (n : Node) : Option String := n.value.bind Value.toStr
/-- /repo/src/definition/base/node.rs:48-50 `get_string_varargs_value`. -/
def varargs (n : Node) : Option (List String) := n.value.bind Value.toVarargs

/-- `Node::new(k).with_string_value(s)` (/repo/src/definition/base/node.rs:72-75). -/
def ofStr (k s : String) : Node := .leaf k none (some (.string s))
/-- `Node::new(k).with_boolean_value(b)` (/repo/src/definition/base/node.rs:60-63). -/
def ofBool (k : String) (b : Bool) : Node := .leaf k none (some (.boolean b))
/-- `Node::new(k).with_number_integer_value(i)` (/repo/src/definition/base/node.rs:64-67). -/
def ofInt (k : String) (i : Int) : Node := .leaf k none (some (.number (.integer i)))
/-- `Node::new(k).with_string_varargs_value(ss)` (/repo/src/definition/base/node.rs:76-79). -/
def ofVarargs (k : String) (n : Option String) (ss : List String) : Node :=
  .leaf k n (some (.ofVarargs ss))
end Node

/-- A YAML value as `serde_yaml` has it; mappings are lists of entries in their order.  Simplified: a
key that is not a string is `none`; an integer is an `Int`, a float its bit pattern; a value with a
tag is just that. -/
inductive Yaml where
  | null
  | bool (b : Bool)
  | num (n : Num)
  | str (s : String)
  | seq (vs : List Yaml)
  | map (keys : List (Option String)) (vals : List Yaml)
  | tagged
deriving Repr

/-- /repo/src/definition/base/yaml.rs:8-42 `KEYWORDS`. -/
def keywords : List String :=
  ["foreign key", "initially deferred", "not null", "on delete", "on update", "owned by",
   "primary key", "as", "cache", "check", "column", "constraint", "cycle", "default", "deferrable",
   "function", "volatility", "index", "language", "match", "maxvalue", "method", "minvalue", "on",
   "references", "returns", "schema", "sequence", "start", "table", "type", "unique", "view"]

/-- The loop of /repo/src/definition/base/yaml.rs:78-84: the first keyword the key starts with, in
lower case. -/
def findKeyword (low : List Char) : List String → Option String
  | [] => none
  | k :: ks => if k.toList.isPrefixOf low then some k else findKeyword low ks

/-- /repo/src/definition/base/yaml.rs:74-93 `create_node_from_mapping_key`: kind and name. -/
def parseKey (key : String) : Except Fail (String × Option String) :=
  match findKeyword (toLower key.toList) keywords with
  | none => .error .error
  | some k =>
    match byteDrop (byteLen k.toList) key.toList with
    | none => .error .panic
    | some rest =>
      match trim rest with
      | [] => .ok (k, none)
      | n => .ok (k, some (String.ofList n))

/-- /repo/src/definition/base/yaml.rs:151-158 `render_node_to_mapping_key`. -/
def renderKey (kind : String) (name : Option String) : String :=
  match name with
  | none => kind
  | some n => kind ++ " " ++ n

/-- The smallest and the largest `i64`. -/
def i64Min : Int := -9223372036854775808
def i64Max : Int := 9223372036854775807

/-- /repo/src/definition/base/yaml.rs:129-137 `parse_serde_number_to_ddl_number`. -/
def parseNum : Num → Except Fail Num
  | .float b => .ok (.float b)
  | .integer i => if i64Min ≤ i ∧ i ≤ i64Max then .ok (.integer i) else .error .error

mutual
/-- /repo/src/definition/base/yaml.rs:104-127 `parse_serde_value_to_ddl_value`; a mapping inside a
sequence reaches `unreachable!`. -/
def parseValue : Yaml → Except Fail Value
  | .str s => .ok (.string s)
  | .num n =>
    match parseNum n with
    | .error e => .error e
    | .ok m => .ok (.number m)
  | .bool b => .ok (.boolean b)
  | .map _ _ => .error .panic
  | .seq vs =>
    match parseValues vs with
    | .error e => .error e
    | .ok l => .ok (.list l)
  | .null => .error .error
  | .tagged => .error .error
/-- /repo/src/definition/base/yaml.rs:95-102 `parse_serde_sequence_to_ddl_list`. -/
def parseValues : List Yaml → Except Fail (List Value)
  | [] => .ok []
  | v :: vs =>
    match parseValue v with
    | .error e => .error e
    | .ok x =>
      match parseValues vs with
      | .error e => .error e
      | .ok xs => .ok (x :: xs)
end

mutual
/-- /repo/src/definition/base/yaml.rs:55-67: one entry of a mapping, its key already read. -/
def parseEntry (kind : String) (name : Option String) : Yaml → Except Fail Node
  | .map ks vs =>
    match parseMapping ks vs with
    | .error e => .error e
    | .ok ns => .ok (.branch kind name ns)
  | .null => .ok (.leaf kind name none)
  | .bool b => .ok (.leaf kind name (some (.boolean b)))
  | .num n =>
    match parseNum n with
    | .error e => .error e
    | .ok m => .ok (.leaf kind name (some (.number m)))
  | .str s => .ok (.leaf kind name (some (.string s)))
  | .seq vs =>
    match parseValues vs with
    | .error e => .error e
    | .ok l => .ok (.leaf kind name (some (.list l)))
  | .tagged => .error .error
/-- /repo/src/definition/base/yaml.rs:44-72 `parse_mapping_to_nodes`, entry by entry. -/
def parseMapping : List (Option String) → List Yaml → Except Fail (List Node)
  | [], _ => .ok []
  | _ :: _, [] => .ok []
  | k :: ks, v :: vs =>
    match k with
    | none => .error .error
    | some key =>
      match parseKey key with
      | .error e => .error e
      | .ok (kind, name) =>
        match parseEntry kind name v with
        | .error e => .error e
        | .ok n =>
          match parseMapping ks vs with
          | .error e => .error e
          | .ok ns => .ok (n :: ns)
end

mutual
/-- /repo/src/definition/base/yaml.rs:174-189 `render_value_to_serde_value` with 191-205. -/
def renderValue : Value → Yaml
  | .boolean b => .bool b
  | .string s => .str s
  | .number n => .num n
  | .list vs => .seq (renderValues vs)
/-- /repo/src/definition/base/yaml.rs:198-205 `render_list_to_serde_sequence`. -/
def renderValues : List Value → List Yaml
  | [] => []
  | v :: vs => renderValue v :: renderValues vs
end

/-- `Mapping::insert` (an `IndexMap`): a new key goes to the end, a key that is there keeps its place
and gets the new value. -/
def insertEntry (m : AMap Yaml) (k : String) (v : Yaml) : AMap Yaml :=
  if m.has k then m.set k v else m.insertNew k v

/-- The mapping made of the entries inserted one after the other. -/
def insertEntries (es : List (String × Yaml)) : AMap Yaml :=
  es.foldl (fun m e => insertEntry m e.1 e.2) []

/-- A mapping whose keys are all strings. -/
def mapOf (m : AMap Yaml) : Yaml := .map (m.map fun e => some e.1) (m.map fun e => e.2)

mutual
/-- /repo/src/definition/base/yaml.rs:160-172 `render_node_to_mapping_value`, with the key of
151-158. -/
def renderNode : Node → String × Yaml
  | .leaf k n none => (renderKey k n, .null)
  | .leaf k n (some v) => (renderKey k n, renderValue v)
  | .branch k n ns => (renderKey k n, mapOf (insertEntries (renderNodes ns)))
/-- The entries /repo/src/definition/base/yaml.rs:139-149 `render_nodes_to_mapping` inserts. -/
def renderNodes : List Node → List (String × Yaml)
  | [] => []
  | n :: ns => renderNode n :: renderNodes ns
end

/-- /repo/src/definition/base/yaml.rs:139-149 `render_nodes_to_mapping`. -/
def renderMapping (ns : List Node) : AMap Yaml := insertEntries (renderNodes ns)

/-- Reading the nodes of a mapping whose keys are strings. -/
def parseNodes (m : AMap Yaml) : Except Fail (List Node) :=
  parseMapping (m.map fun e => some e.1) (m.map fun e => e.2)

end Def
end Podo
