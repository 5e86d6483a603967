import Verif.Model.Clock
import Verif.Spec.Commands
import Verif.Spec.Program
import Verif.Spec.Repair
/-
Words for C91 and C92: everything that happens on a machine with podo on it.
-/
namespace Podo

/-- One moment of local time is before another: the year, and so on to the second. -/
def LocalTime.Before (a b : LocalTime) : Prop :=
  a.year < b.year ∨ a.year = b.year ∧ (a.month < b.month ∨ a.month = b.month ∧ (a.day < b.day ∨ a.day = b.day ∧
    (a.hour < b.hour ∨ a.hour = b.hour ∧ (a.minute < b.minute ∨ a.minute = b.minute ∧ a.second < b.second))))

namespace Prog
open Proj
variable {σ : Type}

/-- When `make` was run and with which label, newest first. -/
abbrev Makes := List (LocalTime × String)

/-- While some servers cannot be reached. -/
def World.without (w : World σ) (away : String → Bool) : World σ :=
  ⟨w.fs, fun url => if away url then none else w.servers url⟩

/-- When they can be reached again. -/
def World.back (w₁ w : World σ) (away : String → Bool) : World σ :=
  ⟨w₁.fs, fun url => if away url then w.servers url else w₁.servers url⟩

/-- A command that may be given: `init` not in a directory that has a history and no project, and `make` at a
time and with a label that `ok` allows after those before, where the name does not end in `.yaml`. -/
def Allowed (ok : Makes → LocalTime × String → Prop) (S : Setting σ) (w : World σ) (cwd : Proj.Path) (log : Makes)
    (t : LocalTime) : Args → Prop
  | .init => (∃ p, discover S.env w.fs cwd = .ok p) ∨ w.fs.history (cwd ++ ["database", "history"]) = []
  | .make _ label => ok log (t, label.getD "auto") ∧ ∀ stem, t.text ++ "-" ++ label.getD "auto" ≠ stem ++ ".yaml"
  | _ => True

/-- What is noted of a command. -/
def noted (t : LocalTime) (log : Makes) : Args → Makes
  | .make _ label => (t, label.getD "auto") :: log
  | _ => log

/-- What is noted of a command that is interrupted. -/
def notedDead (t : LocalTime) (log : Makes) : HistCmd → Makes
  | .make _ label => (t, label.getD "auto") :: log
  | _ => log

/-- One thing that happens: somebody edits the configuration or the definitions, and directories come to be
listed in another order; or somebody works in a database, outside of podo's schemas, and servers are set up or
taken down; or a podo command is run, on whatever profile, from whatever directory, while any servers cannot
be reached, and ends in whatever way; or one is killed while it saves version files, and the history is put in
order; or one is killed while it brings a database up. -/
inductive Happens (B : Pg.Behaviour σ) (ok : Makes → LocalTime × String → Prop) :
    Makes → World σ → Makes → World σ → Prop where
  | edit {log : Makes} {w w' : World σ} : w'.servers = w.servers →
      (∀ p, (w.fs.history p).Perm (w'.fs.history p)) → Happens B ok log w log w'
  | database {log : Makes} {w w' : World σ} : w'.fs = w.fs →
      (∀ url s', w'.servers url = some s' → (∃ s, w.servers url = some s ∧ s'.metas = s.metas) ∨
        (w.servers url = none ∧ ∀ m, s'.metas m = .absent)) → Happens B ok log w log w'
  | command {log : Makes} {w w₁ : World σ} {S : Setting σ} {t : LocalTime} {cwd : Proj.Path} {a : Args}
      {away : String → Bool} {out : List String} {e : Ending} : S.B = B → S.now = t.text →
      Allowed ok S w cwd log t a → Ends S (w.without away) cwd a w₁ out e →
      Happens B ok log w (noted t log a) (w₁.back w away)
  | interrupted {log : Makes} {w : World σ} {p : Proj.Path} {t : LocalTime} {c : HistCmd} {d d' : HDir} :
      (∀ stamp label, c = .make stamp label → stamp = t.text ∧ ok log (t, label.getD "auto") ∧
        ∀ stem, t.text ++ "-" ++ label.getD "auto" ≠ stem ++ ".yaml") →
      Dies c (w.fs.history p) d → Mended d d' →
      Happens B ok log w (notedDead t log c) ⟨{ w.fs with history := update w.fs.history p d' }, w.servers⟩
  | killed {log : Makes} {w : World σ} {p : Proj.Path} {url m : String} {s : Server σ} {target : Option String}
      {db : Pg.DB σ} : w.servers url = some s → Pg.UpDies B (w.fs.history p) target (s.db m) db →
      Happens B ok log w log (putServer w url m s db)

/-- Any number of things, one after the other. -/
inductive Goes (B : Pg.Behaviour σ) (ok : Makes → LocalTime × String → Prop) (log : Makes) (w : World σ) :
    Makes → World σ → Prop where
  | now : Goes B ok log w log w
  | on {log₁ log₂ : Makes} {w₁ w₂ : World σ} : Goes B ok log w log₁ w₁ → Happens B ok log₁ w₁ log₂ w₂ →
      Goes B ok log w log₂ w₂

/-- A machine on which podo has never run: no version files, and no metadata schemas in the databases. -/
structure Untouched (w : World σ) : Prop where
  history : ∀ p, w.fs.history p = []
  servers : ∀ url s, w.servers url = some s → ∀ m, s.metas m = .absent

/-- The states of a machine, with all that may happen on it.  Commands are not run at the same time, and
`init` is not interrupted. -/
def Life (B : Pg.Behaviour σ) (ok : Makes → LocalTime × String → Prop) (log : Makes) (w : World σ) : Prop :=
  ∃ w₀, Untouched w₀ ∧ Goes B ok [] w₀ log w

/-- No two `make`s in the same second with the same label. -/
def Distinct (log : Makes) (m : LocalTime × String) : Prop := m ∉ log

/-- The local time goes on from one `make` to the next. -/
def Forward (log : Makes) (m : LocalTime × String) : Prop := ∀ m' ∈ log, m'.1.Before m.1

end Prog
end Podo
