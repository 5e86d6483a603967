import Verif.Spec.Pg
/-
Words for C93: commands that are interrupted, and what is done about it.
-/
namespace Podo

/-- What somebody does by hand, with only the files to go by, to a history that does not open any more. -/
inductive Repair (d : HDir) : HDir → Prop where
  /-- the stage cannot be read: it is written anew, empty, on top of the version that none follows -/
  | stage {last : String} {v : Version} : d.get? "stage.yaml" = some (.file none) → Stored d last v →
      (∀ n w, Stored d n w → w.previous ≠ some last) →
      Repair d (d.set "stage.yaml" (.file (some (Version.newStage last))))
  /-- another file cannot be read: it is deleted -/
  | unreadable {n : String} : n ≠ "stage" → d.get? (n ++ ".yaml") = some (.file none) →
      Repair d (d.erase (n ++ ".yaml"))
  /-- a version follows the same one as the stage: its file is deleted -/
  | branch {n : String} {v st : Version} : n ≠ "stage" → Stored d n v → Stored d "stage" st →
      v.previous = st.previous → Repair d (d.erase (n ++ ".yaml"))

/-- The process that runs the command on `d` dies at some point of it and leaves `d'` behind. -/
def Dies (c : HistCmd) (d d' : HDir) : Prop :=
  ∃ fuel vs, c.plan fuel d = some (.ok vs) ∧ CrashState d vs d'

/-- The history is put in order after an interruption: with `reset`, or by hand. -/
def Mended (d d' : HDir) : Prop := Runs .reset d d' true ∨ Repair d d'

namespace Pg
variable {σ : Type}

/-- The version tables a process that applies versions (/repo/src/cmd/up.rs:41-49) gets to before it dies. -/
inductive UpTo (B : Behaviour σ) (d : HDir) : List String → VTable → σ → VTable → Prop where
  | here {ns : List String} {t : VTable} {s : σ} : UpTo B d ns t s t
  | refused {n : String} {ns : List String} {t t' : VTable} {s s' : σ} {v : Version} : d.getVersion n = .ok v →
      execAll B s v.up = some s' → t.insert B v = (t', false) → UpTo B d (n :: ns) t s t'
  | on {n : String} {ns : List String} {t t' t'' : VTable} {s s' : σ} {v : Version} : d.getVersion n = .ok v →
      execAll B s v.up = some s' → t.insert B v = (t', true) → UpTo B d ns t' s' t'' → UpTo B d (n :: ns) t s t''

/-- What a database is after the process that runs `up` has died at some point of it: the server undoes what has
not been committed, all but the numbers drawn from a sequence. -/
inductive UpDies (B : Behaviour σ) (d : HDir) (target : Option String) (db : DB σ) : DB σ → Prop where
  /-- before it has recorded anything -/
  | before : UpDies B d target db db
  /-- while it applies versions, with the last statement still to come or the commit -/
  | within {fuel : Nat} {opened : HDir.Opened} {t t' : VTable} {current to : Version} {versions : List String} :
      HDir.fromDir fuel d = some (.ok opened) → ensureInitialized B db = (.table t, true) →
      t.current = some current → d.getVersion (target.getD opened.currentVersion) = .ok to →
      HDir.upwardRange fuel d current.name to.name = some (.ok versions) →
      UpTo B d versions t db.data t' → UpDies B d target db (db.rollback (.table t'))
  /-- when it has committed, or failed -/
  | after {fuel : Nat} {db' : DB σ} {o : Outcome} : up B fuel d target db = some (db', o) → UpDies B d target db db'

end Pg
end Podo
