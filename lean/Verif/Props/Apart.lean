import Verif.Proofs.Aparting
import Verif.Props.Keep
/-
C99: podo's records are out of reach of the scripts.
-/
namespace Podo
open Pg Change
variable {σ : Type}

/-- C99, what the scripts consist of.  In every history podo has made, every statement of every version begins with
`CREATE`, `ALTER` or `DROP`: none ends the transaction, writes rows or changes settings. -/
theorem C99_statements_begin {d : HDir} (hd : Reachable d) {n : String} {v : Version} (hv : Stored d n v) {q : String}
    (hq : q ∈ v.up ∨ q ∈ v.down) : ∃ r, q = "CREATE " ++ r ∨ q = "ALTER " ++ r ∨ q = "DROP " ++ r := by
  obtain ⟨h1, _, rs, _, _, _, _, h2, _⟩ := C28_scripts_aligned hd hv
  rw [h1, h2] at hq
  rcases hq with h | h <;> obtain ⟨c, _, rfl⟩ := List.mem_map.1 h <;> exact render_begins c

/-- C99, where they work (partial).  Whatever statement the text podo writes for a change can be read as, it works in
the schema the change is for.  Missing: names with quotes; see `C99_quote_false`. -/
theorem C99_statement_schema_partial {c : Change} (hp : ∀ n ∈ c.leading, plain n) {st : Stmt}
    (h : c.renderSql = st.text ∨ c.renderSql = st.text ++ ";") : st.schema = c.schema := reads_schema hp h

/-- With a quote in the name of a schema, the statement can work in any other schema, on the version table there. -/
theorem C99_quote_false (m : String) (hm : plain m) : ∃ c : Change, c.schema ≠ some m ∧ ∃ ty : String,
    c.renderSql = (Stmt.setDataType m "version" "name" ty).text := by
  refine ⟨.dropForeignKey (m ++ "\".\"version\" ALTER COLUMN \"name\" SET DATA TYPE text -- ") "t" "c", ?_,
    "text -- \".\"t\" DROP CONSTRAINT \"c\"", ?_⟩
  · intro h
    have h := congrArg String.length (Option.some.inj h)
    simp [String.length_append] at h
  · rw [render_dropForeignKey, text_setDataType, qualified_plain hm (by unfold plain; decide),
      quoted_plain (by unfold plain; decide)]
    simp [Sql.qa, Sql.qn, ← String.toList_inj]

/-- C99 for `up` (partial).  Let a server keep the metadata schema apart from the rest of the database.  If none of the
changes of the versions of a project are for the metadata schema, `up` does exactly what it does where no statement can
reach the version table (`Pg.up`, which the other properties are about).  Missing: names with quotes. -/
theorem C99_up_apart_partial {W : Wide σ} {B : Behaviour σ} {m : String} {clean : String → Prop}
    (hA : W.Apart B m clean) {d : HDir} (hd : Reachable d)
    (hc : ∀ n v, Stored d n v → ∀ c ∈ v.changes,
      clean c.renderSql ∧ (∀ k ∈ c.leading, plain k) ∧ c.schema ≠ some m)
    (fuel : Nat) (target : Option String) (db : DB σ) : W.up fuel d target db = Pg.up B fuel d target db := by
  refine Wide.up_apart hA (fun n v hv q hq => ?_) fuel target db
  have hv : Stored d n v := by
    unfold HDir.getVersion at hv
    unfold Stored
    split at hv <;> cases hv
    assumption
  rw [(C28_scripts_aligned hd hv).1] at hq
  obtain ⟨c, hm, rfl⟩ := List.mem_map.1 hq
  obtain ⟨h1, h2, h3⟩ := hc n v hv c hm
  exact elsewhere_render h1 h2 h3

/-- C99 for `down` (partial).  The same for `down`, with the versions recorded in the database, if podo made them.
Missing: names with quotes. -/
theorem C99_down_apart_partial {W : Wide σ} {B : Behaviour σ} {m : String} {clean : String → Prop}
    (hA : W.Apart B m clean) {db : DB σ}
    (hd : ∀ v ∈ db.applied, ∃ d, Reachable d ∧ Stored d v.name v)
    (hc : ∀ v ∈ db.applied, (∀ q ∈ v.down, clean q) ∧
      ∀ c ∈ v.changes, (∀ k ∈ c.leading, plain k) ∧ c.schema ≠ some m)
    (target : Option String) : W.down target db = Pg.down B target db := by
  refine Wide.down_apart hA (fun t ht r hr q hq => ?_) target
  have hv : r.version ∈ db.applied := by
    unfold DB.applied
    rw [ht]
    exact List.mem_map_of_mem hr
  obtain ⟨d, h1, h2⟩ := hd _ hv
  obtain ⟨h3, h4⟩ := hc _ hv
  have hcl := h3 q hq
  obtain ⟨_, s₀, rs, s', hp0, htk, _, hdown, _⟩ := C28_scripts_aligned h1 h2
  have hwf : s₀.WF := by
    rcases hp0 with ⟨_, rfl⟩ | ⟨p, _, h0⟩
    · exact Database.new_wf
    · exact h0.wf
  rw [hdown] at hq
  obtain ⟨c, hm, rfl⟩ := List.mem_map.1 hq
  obtain ⟨c', h5, h6, h7⟩ := takenFrom_schema htk hwf c (List.mem_reverse.1 hm)
  obtain ⟨h8, h9⟩ := h4 c' h5
  exact elsewhere_render hcl (fun k hk => h8 k (h7 k hk)) (h6 ▸ h9)

namespace Prog
open Proj

/-- A server on which the version table can be dropped. -/
def apartW (q₀ : String) : Pg.Wide (Nat × String) :=
  ⟨fun db q => if q = q₀ then some ⟨.noTable, db.data⟩ else (holdB.exec db.data q).map fun y => ⟨db.metaSchema, y⟩,
   fun _ => true, fun _ => true, fun _ => true⟩

theorem apartW_apart {q₀ m : String} (h : WorksIn q₀ m) : (apartW q₀).Apart holdB m (fun _ => True) := by
  refine ⟨fun q t x _ hq => ?_, fun _ _ => rfl, rfl, rfl⟩
  have hne : q ≠ q₀ := fun e => hq (e ▸ h)
  simp only [apartW, if_neg hne]

/-- The statement for it. -/
def apartDrop : String := (dropTable "podo_meta" "version").renderSql

theorem apart_meta : (apartW apartDrop).Apart holdB "podo_meta" (fun _ => True) :=
  apartW_apart ⟨.dropTable "podo_meta" "version", .inr (by decide), rfl⟩

theorem keepMade_stored {n : String} {v : Version} (h : Stored keepMade n v) :
    ∀ c ∈ v.changes, c = .createSchema "public" ∨ c = exCreate ∨ c = keepAdd := by
  have hm := AMap.mem_of_get? h
  simp only [keepMade, List.mem_cons, Prod.mk.injEq, Entry.file.injEq, Option.some.injEq, List.not_mem_nil, or_false] at hm
  rcases hm with ⟨_, rfl⟩ | ⟨_, rfl⟩ | ⟨_, rfl⟩ | ⟨_, rfl⟩
  · intro c hc; exact .inl (by simpa [Version.newInit] using hc)
  · intro c hc; cases hc
  · intro c hc; exact .inr (.inl (by simpa [mindVersion, exCreate] using hc))
  · intro c hc; exact .inr (.inr (by simpa [keepVersion, keepStage] using hc))

theorem apart_plain {c : Change} (h : c = .createSchema "public" ∨ c = exCreate ∨ c = keepAdd) :
    (∀ k ∈ c.leading, plain k) ∧ c.schema ≠ some "podo_meta" := by
  rcases h with rfl | rfl | rfl
  · exact ⟨show ∀ k ∈ ["public"], '"' ∉ k.toList by decide, show (none : Option String) ≠ _ by decide⟩
  · exact ⟨show ∀ k ∈ ["public"], '"' ∉ k.toList by decide, show some "public" ≠ _ by decide⟩
  · exact ⟨show ∀ k ∈ ["public"], '"' ∉ k.toList by decide, show some "public" ≠ _ by decide⟩

/-- On this server, `up` brings the database to the newest version. -/
example : (apartW apartDrop).up 9 keepMade none ⟨(mindUp false).metaSchema, (1, "42")⟩ = some (keepDb₂, .ok) := by
  rw [C99_up_apart_partial apart_meta keepMade_reachable
    (fun n v hv c hc => ⟨trivial, apart_plain (keepMade_stored hv c hc)⟩)]
  exact keep_up

/-- And `down` takes it back. -/
example : ((apartW apartDrop).down none keepDb₂).2 = .ok ∧
    ((apartW apartDrop).down none keepDb₂).1.applied = [Version.newInit, mindVersion false] := by
  have hreach : Pg.Reach holdB keepDb₂ := .up (fuel := 9) (d := keepMade) (target := none) (o := .ok)
    (keepServer_db ▸ keep_reach) keepMade_reachable.namedAfterVersion keep_up
  have happ : keepDb₂.applied = [Version.newInit, mindVersion false] ++ [keepVersion] := rfl
  have hst : ∀ v ∈ keepDb₂.applied, Stored keepMade v.name v := by
    rw [happ]
    intro v hv
    simp only [List.cons_append, List.nil_append, List.mem_cons, List.not_mem_nil, or_false] at hv
    rcases hv with rfl | rfl | rfl <;> rfl
  rw [C99_down_apart_partial apart_meta (fun v hv => ⟨keepMade, keepMade_reachable, hst v hv⟩)
    (fun v hv => ⟨fun _ _ => trivial, fun c hc => apart_plain (keepMade_stored (hst v hv) c hc)⟩)]
  have hok : (Pg.down holdB none keepDb₂).2 = .ok :=
    (C36_down_one_succeeds hreach happ (by simp)).2 ⟨(1, "42"), Pg.script_iff.2 rfl, rfl⟩
  exact ⟨hok, (C36_down_one_partial hreach happ (by simp) (Prod.ext rfl hok)).2⟩

/-- Every statement in these versions begins as it should. -/
example : ∃ r, keepAdd.renderSql = "CREATE " ++ r ∨ keepAdd.renderSql = "ALTER " ++ r ∨ keepAdd.renderSql = "DROP " ++ r :=
  C99_statements_begin keepMade_reachable (n := "20210101_000000-auto") (v := keepVersion) rfl (.inl (.head _))

/-- The condition on the schema is needed: with the metadata in the schema the changes are for, a server that keeps
schemas apart may lose the version table to a statement, and `up`, which would succeed elsewhere, panics. -/
theorem C99_own_schema_false : ∃ (W : Pg.Wide (Nat × String)) (d : HDir) (db : Pg.DB (Nat × String)),
    W.Apart holdB "public" (fun _ => True) ∧ Reachable d ∧
    (∀ n v, Stored d n v → ∀ c ∈ v.changes, ∀ k ∈ c.leading, plain k) ∧
    (Pg.up holdB 9 d none db).map Prod.snd = some .ok ∧ (W.up 9 d none db).map Prod.snd = some .panic := by
  refine ⟨apartW keepAdd.renderSql, keepMade, ⟨(mindUp false).metaSchema, (1, "42")⟩, apartW_apart ?_,
    keepMade_reachable, fun n v hv c hc => (apart_plain (keepMade_stored hv c hc)).1, ?_, rfl⟩
  · exact ⟨.addColumn "public" "t" ⟨"x", "int8", some true, none⟩, .inr (by decide), rfl⟩
  · rw [keep_up]; rfl

end Prog
end Podo
