import Verif.Model.Program
/-
What a command line of podo means, without the way it is read.
-/
namespace Podo
namespace Cli
open Prog

/-- The two ways of giving an option a value: as the next argument, if that does not begin with a dash or
is a single one; or in the same argument, after `=`. -/
inductive Written (name value : String) : List String → Prop
  | apart : value = "-" ∨ value.toList.head? ≠ some '-' → Written name value ["--" ++ name, value]
  | joined : Written name value ["--" ++ name ++ "=" ++ value]

/-- Options with their values, in the order given. -/
inductive AllWritten : List (String × String) → List String → Prop
  | nil : AllWritten [] []
  | cons {name value : String} {os : List (String × String)} {here rest : List String} :
      Written name value here → AllWritten os rest → AllWritten ((name, value) :: os) (here ++ rest)

/-- The profile asked for: the one given, or `database`. -/
def ProfileGiven (os : List (String × String)) (p : String) : Prop :=
  ("profile", p) ∈ os ∨ (∀ v, ("profile", v) ∉ os) ∧ p = "database"

/-- The version asked for, if one is given. -/
def VersionGiven (os : List (String × String)) : Option String → Prop
  | some v => ("version", v) ∈ os
  | none => ∀ v, ("version", v) ∉ os

/-- What a command with options stands for. -/
inductive Means (os : List (String × String)) : String → Args → Prop
  | init : os = [] → Means os "init" .init
  | status {p : String} : (∀ o ∈ os, o.1 = "profile") → ProfileGiven os p → Means os "status" (.status p)
  | stage {p : String} : (∀ o ∈ os, o.1 = "profile") → ProfileGiven os p → Means os "stage" (.stage p)
  | reset {p : String} : (∀ o ∈ os, o.1 = "profile") → ProfileGiven os p → Means os "reset" (.reset p)
  | make {p : String} {v : Option String} : (∀ o ∈ os, o.1 = "profile" ∨ o.1 = "version") →
      ProfileGiven os p → VersionGiven os v → Means os "make" (.make p v)
  | up {p : String} {v : Option String} : (∀ o ∈ os, o.1 = "profile" ∨ o.1 = "version") →
      ProfileGiven os p → VersionGiven os v → Means os "up" (.up p v)
  | down {p : String} {v : Option String} : (∀ o ∈ os, o.1 = "profile" ∨ o.1 = "version") →
      ProfileGiven os p → VersionGiven os v → Means os "down" (.down p v)
  | clone : os = [] → Means os "clone" .clone
  | print : os = [] → Means os "print" .print
  | sync {p : String} : (∀ o ∈ os, o.1 = "profile") → ProfileGiven os p → Means os "sync" (.sync p)

/-- The command lines of a command: its name, its options in any order, each at most once, and possibly
`--` at the end. -/
def Line (argv : List String) (a : Args) : Prop :=
  ∃ name os given last, argv = name :: (given ++ last) ∧ AllWritten os given ∧ (os.map (·.1)).Nodup ∧
    (last = [] ∨ last = ["--"]) ∧ Means os name a

end Cli
end Podo
