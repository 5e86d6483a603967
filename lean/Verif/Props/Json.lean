import Verif.Proofs.Json
import Verif.Props.Serde
/-
C103: the text in which the changes of a version are kept in the version table.
-/
namespace Podo
namespace Json
open Serde (Doc FitsInt64)

/-- Changes written into the version table are read back as they were, whatever is in their names and expressions. -/
theorem C103_kept (cs : List Change) (h : ∀ c ∈ cs, FitsInt64 c) : readChanges (changesText cs) = some cs := by
  have hp : parse (changesText cs) = some (Serde.changesDoc cs) :=
    parse_iff.2 ⟨⟨[], _, [], ws_nil, write_says _, ws_nil, by simp [changesText]⟩, by have := nest_changes cs; omega⟩
  rw [readChanges, hp]
  exact Serde.C54_database_changes cs h

/-- What is written is JSON for the changes: the server takes it into a column of the type JSON. -/
theorem C103_denotes (cs : List Change) : JsonText (Serde.changesDoc cs) (changesText cs) :=
  ⟨[], _, [], ws_nil, write_says _, ws_nil, by simp [changesText]⟩

/-- It holds no end of line and no other control character, not even if one is in a name or an expression. -/
theorem C103_printable (cs : List Change) : ∀ c ∈ (changesText cs).toList, 32 ≤ c.toNat := by
  simp only [changesText, String.toList_ofList]
  exact clean_write _

/-- A text is read as a tree of values exactly if it is JSON for it and at most 127 sequences and mappings are within
each other. -/
theorem C103_read_iff (text : String) (d : Doc) : parse text = some d ↔ JsonText d text ∧ nest d ≤ 127 := parse_iff

/-- A text is JSON for one tree of values only. -/
theorem C103_one_meaning {d d' : Doc} {text : String} (h : JsonText d text) (h' : JsonText d' text) : d = d' :=
  one_meaning h h'

/-- Any other text that is JSON for the changes is read as the changes too: other blanks, other escapes. -/
theorem C103_any_layout (cs : List Change) (h : ∀ c ∈ cs, FitsInt64 c) (text : String)
    (ht : JsonText (Serde.changesDoc cs) text) : readChanges text = some cs := by
  rw [readChanges, parse_iff.2 ⟨ht, by have := nest_changes cs; omega⟩]
  exact Serde.C54_database_changes cs h

/-- Different changes are different texts. -/
theorem C103_apart {cs cs' : List Change} (h : ∀ c ∈ cs, FitsInt64 c) (h' : ∀ c ∈ cs', FitsInt64 c)
    (e : changesText cs = changesText cs') : cs = cs' := by
  have h1 := C103_kept cs h
  rw [e, C103_kept cs' h'] at h1
  exact (Option.some.inj h1).symm

/-! ### Cases -/

/-- A quote, a backslash, an end of line, a bell and a letter outside of ASCII in a name. -/
example : changesText [.createSchema "a\"b\\c\nd\u0007é"] =
    "[{\"type\":\"CreateSchemaChange\",\"change\":{\"schema_name\":\"a\\\"b\\\\c\\nd\\u0007é\"}}]" := by decide +kernel

example : readChanges (changesText [.createSchema "a\"b\\c\nd\u0007é"]) = some [.createSchema "a\"b\\c\nd\u0007é"] :=
  C103_kept _ (by intro c hc; simp only [List.mem_singleton] at hc; subst hc; trivial)

/-- Blanks and escapes podo does not write. -/
example : readChanges " [ {\"type\" : \"CreateSchemaChange\",\n\t\"change\":{ \"schema_name\":\"\\u00E9\\/\\uD83D\\uDE00\"} } ]\n" =
    some [.createSchema "é/😀"] := by decide +kernel

/-- Texts that are not JSON, or not for numbers of podo. -/
example : parse "[01]" = none ∧ parse "[1,]" = none ∧ parse "[-0]" = none ∧ parse "[1.0]" = none ∧
    parse "\"\\uD83D\"" = none ∧ parse "\"\\x\"" = none ∧ parse "[1] 2" = none ∧ parse "" = none ∧ parse "{\"a\"}" = none ∧
    parse "\"a\nb\"" = none := by decide +kernel

example : (parse "[-120, 0, {\"k\": null, \"k\": [true, false, []]}, {}]").map (fun d => String.ofList (write d)) =
    some "[-120,0,{\"k\":null,\"k\":[true,false,[]]},{}]" := by decide +kernel

/-- 127 sequences within each other are read, 128 are not. -/
example : (parse (String.ofList (List.replicate 127 '[' ++ List.replicate 127 ']'))).isSome = true ∧
    parse (String.ofList (List.replicate 128 '[' ++ List.replicate 128 ']')) = none := by decide +kernel

end Json
end Podo
