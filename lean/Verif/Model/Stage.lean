import Verif.Model.Diff
/-
Model of the loop of /repo/src/cmd/stage.rs:25-39 on snapshots.  The SQL texts recorded next to the
changes are added in `Verif.Model.History`; printing is not modelled.
-/
namespace Podo

/-- Outcome of the staging loop: done with the final snapshot and the list of recorded reverts,
newest first (`Version::add_down` prepends, /repo/src/history/version.rs:46-50); stopped by the `?`
on `apply`; or aborted by the `unwrap` on `revert`. -/
inductive StageOutcome where
  | done (final : Database) (recorded : List Change) (reverts : List Change)
  | error (e : SnapshotError)
  | panic (e : SnapshotError)
deriving DecidableEq, Repr

/-- /repo/src/cmd/stage.rs:25-39: for each change take `revert(&source).unwrap()`, then
`apply(&mut source)?`, then record the change (appended) and its revert (prepended). -/
def stageLoop : List Change → Database → List Change → List Change → StageOutcome
  | [], d, recorded, downs => .done d recorded downs
  | c :: cs, d, recorded, downs =>
    match c.revert d with
    | .error e => .panic e
    | .ok r =>
      match c.apply d with
      | .error e => .error e
      | .ok d' => stageLoop cs d' (recorded ++ [c]) (r :: downs)

end Podo
