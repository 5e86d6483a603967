import Verif.Proofs.Load
import Verif.Props.Demo
/-
C14, C15: loading a directory of definition files.
`parse` stands for reading one file: it gives the schema definitions in it, each well-formed
(C46 shows that for the parser of definitions), or fails.
-/
namespace Podo

/-- A directory tree with two files about the schema `public`, one in a subdirectory, a file about
another schema, and a file that is not YAML (for examples).  A file is its schema definitions. -/
def demoTree : List (DirTree (List Schema)) :=
  [ .file "users.yaml" [⟨"public", [("users", .table ⟨"public", "users",
      [⟨"public", "users", "id", "int8", true, none⟩], []⟩)], []⟩],
    .file "README.md" [⟨"oops", [], []⟩],
    .dir "more" [ .file "audit.yaml" [⟨"audit", [], [("f", ⟨"audit", "f", "b", "SQL", "void", "VOLATILE"⟩)]⟩],
      .file "views.yaml" [⟨"public", [("v", .view ⟨"public", "v", "SELECT 1"⟩)], []⟩] ] ]

/-- The same tree listed in another order. -/
def demoTree' : List (DirTree (List Schema)) :=
  match demoTree with
  | [a, b, .dir n [x, y]] => [.dir n [y, x], b, a]
  | t => t

/-- C14.  Listing the directory tree in another order, at any depth, changes neither whether the load
succeeds nor the snapshot it gives. -/
theorem C14_load_order {F : Type} {parse : F → Except LoadError (List Schema)}
    (hw : ∀ f scs, parse f = .ok scs → ∀ sc ∈ scs, sc.WF)
    {es es' : List (DirTree F)} (h : Relisted es es') :
    ((∃ d, Load.snapshot parse es = .ok d) ↔ (∃ d, Load.snapshot parse es' = .ok d)) ∧
    ∀ d d', Load.snapshot parse es = .ok d → Load.snapshot parse es' = .ok d' →
      SameSnapshot d d' := by
  have hp := h.collect_perm
  have hd := allDefs_perm (parse := parse) hp
  obtain ⟨i1, i2⟩ := filesInto_ok_iff (parse := parse) (Load.collect es) Database.new [] holds_new
    (fun f _ => hw f)
  obtain ⟨j1, j2⟩ := filesInto_ok_iff (parse := parse) (Load.collect es') Database.new [] holds_new
    (fun f _ => hw f)
  refine ⟨?_, ?_⟩
  · simp only [Load.snapshot]
    rw [i1, j1]
    simp only [hp.mem_iff, List.not_mem_nil, false_implies, implies_true, true_and]
    rw [hd.pairwise_iff fun {a b} hn hc => hn hc.symm]
  · intro d d' h1 h2
    have a1 := i2 d h1
    have a2 := j2 d' h2
    simp only [List.nil_append] at a1 a2
    exact (a1.congr (SameDefs.of_perm hd)).same a2

example : Relisted demoTree demoTree' ∧ ∃ d d', Load.snapshot .ok demoTree = .ok d ∧
    Load.snapshot .ok demoTree' = .ok d' ∧ d ≠ d' :=
  ⟨(((Relisted.swap _ _ _).trans (.cons _ (.swap _ _ _))).trans (.swap _ _ _)).trans
      (.inside _ _ (.swap _ _ _)),
    _, _, rfl, rfl, by decide⟩

/-- C15, first half.  A load that succeeds holds exactly what the YAML files somewhere in the tree
define: every relation and function of every file, as that file defines it, and nothing else. -/
theorem C15_nothing_lost {F : Type} {parse : F → Except LoadError (List Schema)}
    (hw : ∀ f scs, parse f = .ok scs → ∀ sc ∈ scs, sc.WF)
    {es : List (DirTree F)} {d : Database} (h : Load.snapshot parse es = .ok d) (s : String) :
    (d.hasSchema s = true ↔ ∃ n f scs sc, InTree n f es ∧ YamlName n ∧
      parse f = .ok scs ∧ sc ∈ scs ∧ sc.name = s) ∧
    (∀ r x, d.relationAt s r = some x ↔ ∃ n f scs sc, InTree n f es ∧ YamlName n ∧
      parse f = .ok scs ∧ sc ∈ scs ∧ sc.name = s ∧ sc.relations.get? r = some x) ∧
    (∀ g x, d.functionAt s g = some x ↔ ∃ n f scs sc, InTree n f es ∧ YamlName n ∧
      parse f = .ok scs ∧ sc ∈ scs ∧ sc.name = s ∧ sc.functions.get? g = some x) := by
  obtain ⟨_, i2⟩ := filesInto_ok_iff (parse := parse) (Load.collect es) Database.new [] holds_new
    (fun f _ => hw f)
  have hh := i2 d h
  simp only [List.nil_append] at hh
  have key : ∀ p : Schema → Prop, (∃ sc ∈ allDefs parse (Load.collect es), p sc) ↔
      ∃ n f scs sc, InTree n f es ∧ YamlName n ∧ parse f = .ok scs ∧ sc ∈ scs ∧ p sc := by
    intro p
    simp only [allDefs, List.mem_flatMap]
    constructor
    · rintro ⟨sc, ⟨f, hf, hm⟩, hps⟩
      obtain ⟨n, hy, hin⟩ := Load.collect_sub es hf
      cases hpf : parse f with
      | error e => simp [hpf] at hm
      | ok scs => rw [hpf] at hm; exact ⟨n, f, scs, sc, hin, Load.isYaml_iff.1 hy, hpf, hm, hps⟩
    · rintro ⟨n, f, scs, sc, hin, hy, hpf, hm, hps⟩
      exact ⟨sc, ⟨f, hin.mem_collect (Load.isYaml_iff.2 hy), by rw [hpf]; exact hm⟩, hps⟩
  refine ⟨?_, ?_, ?_⟩
  · rw [← key, ← hh.schema]
    simp only [Database.hasSchema, AMap.has, Option.isSome_iff_exists]
  · intro r x; rw [hh.rel, key]
  · intro g x; rw [hh.fn, key]

/-- C15, second half.  A load succeeds exactly when every YAML file can be read and no two schema
definitions — in one file or in two — define the same relation or function of the same schema. -/
theorem C15_duplicates_fail {F : Type} {parse : F → Except LoadError (List Schema)}
    (hw : ∀ f scs, parse f = .ok scs → ∀ sc ∈ scs, sc.WF) (es : List (DirTree F)) :
    (∃ d, Load.snapshot parse es = .ok d) ↔
      (∀ n f, InTree n f es → YamlName n → ∃ scs, parse f = .ok scs) ∧
      (∀ n f scs, InTree n f es → YamlName n → parse f = .ok scs →
        ∀ a b, [a, b].Sublist scs → ¬ DefinitionsClash a b) ∧
      (∀ m n f g scs scs', [(m, f), (n, g)].Sublist (filesOf es) → YamlName m → YamlName n →
        parse f = .ok scs → parse g = .ok scs' →
        ∀ a ∈ scs, ∀ b ∈ scs', ¬ DefinitionsClash a b) := by
  obtain ⟨i1, _⟩ := filesInto_ok_iff (parse := parse) (Load.collect es) Database.new [] holds_new
    (fun f _ => hw f)
  simp only [Load.snapshot]
  rw [i1]
  have k1 : (∀ f ∈ Load.collect es, ∃ xs, parse f = .ok xs) ↔
      ∀ n f, InTree n f es → YamlName n → ∃ scs, parse f = .ok scs := by
    constructor
    · intro h n f hin hy; exact h f (hin.mem_collect (Load.isYaml_iff.2 hy))
    · intro h f hf
      obtain ⟨n, hy, hin⟩ := Load.collect_sub es hf
      exact h n f hin (Load.isYaml_iff.1 hy)
  rw [k1]
  simp only [List.not_mem_nil, false_implies, implies_true, true_and]
  refine and_congr_right fun _ => ?_
  simp only [allDefs, List.pairwise_flatMap, List.singleton_sublist]
  refine and_congr ?_ ?_
  · constructor
    · intro h n f scs hin hy hp a b hab
      have := h f (hin.mem_collect (Load.isYaml_iff.2 hy))
      rw [hp] at this
      exact List.pairwise_iff_forall_sublist.1 this hab
    · intro h f hf
      cases hp : parse f with
      | error e => simp
      | ok scs => 
        obtain ⟨n, hy, hin⟩ := Load.collect_sub es hf
        exact List.pairwise_iff_forall_sublist.2 fun {a b} hab =>
          h n f scs hin (Load.isYaml_iff.1 hy) hp a b hab
  · rw [List.pairwise_iff_forall_sublist]
    constructor
    · intro h m n f g scs scs' hs hm hn hp hp' a ha b hb
      have := h (Load.pair_collect.2 ⟨m, n, hs, hm, hn⟩) a (by rw [hp]; exact ha) b (by rw [hp']; exact hb)
      exact this
    · intro h f g hs a ha b hb
      cases hp : parse f with
      | error e => simp [hp] at ha
      | ok scs =>
        cases hp' : parse g with
        | error e => simp [hp'] at hb
        | ok scs' =>
          rw [hp] at ha; rw [hp'] at hb
          obtain ⟨m, n, hs', hm, hn⟩ := Load.pair_collect.1 hs
          exact h m n f g scs scs' hs' hm hn hp hp' a ha b hb

/-- Two files that define the same relation: the load fails. -/
example : Load.snapshot (F := List Schema) .ok
    [ .file "a.yaml" [⟨"public", [("v", .view ⟨"public", "v", "SELECT 1"⟩)], []⟩],
      .dir "d" [.file "b.yaml" [⟨"public", [("v", .view ⟨"public", "v", "SELECT 2"⟩)], []⟩]] ] =
    .error (.snapshot (.relationAlreadyExists "public" "v")) := rfl

/-- The same name in two schemas, or as a relation and as a function, is no clash. -/
example : ∃ d, Load.snapshot (F := List Schema) .ok
    [ .file "a.yaml" [⟨"public", [("v", .view ⟨"public", "v", "SELECT 1"⟩)], []⟩,
        ⟨"other", [("v", .view ⟨"other", "v", "SELECT 1"⟩)], []⟩],
      .file "b.yaml" [⟨"public", [], [("v", ⟨"public", "v", "b", "SQL", "void", "VOLATILE"⟩)]⟩] ] = .ok d ∧
    d.relationAt "public" "v" = some (.view ⟨"public", "v", "SELECT 1"⟩) ∧
    d.functionAt "public" "v" = some ⟨"public", "v", "b", "SQL", "void", "VOLATILE"⟩ := ⟨_, rfl, rfl, rfl⟩

/-- The hypothesis on `parse` holds for a reader of well-formed definitions. -/
example : ∀ (f : String) scs, (fun q : String => (.ok [⟨"public",
    [("v", .view ⟨"public", "v", q⟩)], []⟩] : Except LoadError (List Schema))) f = .ok scs →
    ∀ sc ∈ scs, sc.WF := by
  intro f scs h sc hsc
  cases h
  simp only [List.mem_singleton] at hsc
  subst hsc
  constructor <;> simp [AMap.NodupKeys, AMap.keys, Relation.name, Relation.schemaName, Relation.WF]

end Podo
