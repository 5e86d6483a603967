import Verif.Spec.Follow
import Verif.Proofs.Commands
import Verif.Proofs.Pg
import Verif.Proofs.Program
import Verif.Proofs.Stage
import Verif.Props.Sql
import Verif.Props.Commands
/-
Lemmas for C66 and C67.
-/
set_option linter.unusedSimpArgs false
namespace Podo
namespace Pg
open Spec
variable {σ : Type}

theorem says_of_right {c : Change} (h : c.TextRight) (hq : ∀ n ∈ c.quotedNames, '"' ∉ n.toList) :
    Says c.renderSql c := by
  refine (C56_sql_says_change_partial c hq ?_ ?_).2 h
  · rintro s t n cols ts tt tcols m u d df i rfl
    exact h.elim
  · rintro s f b la r v rfl
    exact h.elim

theorem plain_cons {free : Change → Content → Prop} {s s₁ : Database} {c : Change} {cs : List Change}
    (h : Plain free s (c :: cs)) (ha : c.apply s = .ok s₁) : Plain free s₁ cs := by
  intro pre c' post s₀ e h0
  refine h (c :: pre) c' post s₀ (by rw [e]; rfl) ?_
  simp [Change.applyAll, ha, h0]

/-- A script of right texts takes the schema where the changes take the snapshot. -/
theorem script_follow {B : Behaviour σ} {cat : σ → Content} {free : Change → Content → Prop}
    (ho : Obedient B cat free) {cs : List Change} {s s' : Database} (hs : s.WF)
    (ha : Change.applyAll cs s = .ok s') (hp : Plain free s cs) {x x' : σ} (hc : cat x = s.content)
    (hx : Script B x (cs.map Change.renderSql) x') : cat x' = s'.content := by
  induction cs generalizing s x with
  | nil =>
    cases hx
    simp only [Change.applyAll, Except.ok.injEq] at ha
    rw [hc, ha]
  | cons c cs ih =>
    simp only [Change.applyAll] at ha
    split at ha
    · cases ha
    · next s₁ h1 =>
      cases hx with
      | cons hq hx =>
        obtain ⟨h2, h3, h4⟩ := hp [] c cs s rfl rfl
        refine ih (apply_wf hs h1) ha (plain_cons hp h1) ?_ hx
        exact ho c _ _ _ _ (says_of_right h2 h3) (by rw [hc]; exact h4)
          (by rw [hc]; exact apply_effect hs h1) hq

theorem script_append {B : Behaviour σ} {a b : List String} {x x' : σ} :
    Script B x (a ++ b) x' ↔ ∃ y, Script B x a y ∧ Script B y b x' := by
  rw [script_iff, execAll_append]
  cases h : execAll B x a with
  | none =>
    simp only [Option.bind_none, reduceCtorEq, false_iff, not_exists, not_and]
    intro y hy
    rw [script_iff, h] at hy
    cases hy
  | some y =>
    simp only [Option.bind_some]
    constructor
    · intro h'; exact ⟨y, script_iff.2 h, script_iff.2 h'⟩
    · rintro ⟨z, h1, h2⟩
      rw [script_iff, h] at h1
      cases h1
      exact script_iff.1 h2

theorem snapshotOf_wf {d : HDir} (hr : Reachable d) {n : String} {v : Version} (hv : Stored d n v)
    {s : Database} (hs : SnapshotOf d n s) : s.WF := by
  obtain ⟨vs, st, s₀, hh, hrec⟩ := hr.sound
  obtain ⟨hmem, rfl⟩ := hh.stored_iff.1 hv
  obtain ⟨A, C, hl⟩ := List.append_of_mem hmem
  rw [hl, show A ++ v :: C = (A ++ [v]) ++ C by simp] at hrec
  obtain ⟨s₁, h1, _⟩ := recorded_append.1 hrec
  cases hs.unique (hh.snapshotOf hl h1)
  exact applyAll_wf Database.new_wf h1.applyAll

theorem takenFrom_wf {cs rs : List Change} {s s' : Database} (h : TakenFrom cs s rs s') (hs : s.WF) :
    s'.WF := applyAll_wf hs h.applyAll

/-- The reverts, last first, lead back. -/
theorem takenFrom_undo {cs rs : List Change} {s s' : Database} (h : TakenFrom cs s rs s') (hs : s.WF)
    (hl : ∀ pre c post s₀, cs = pre ++ c :: post → Change.applyAll pre s = .ok s₀ →
      ¬ Lossy s₀.content c) :
    ∃ s₀, Change.applyAll rs.reverse s' = .ok s₀ ∧ s₀.content = s.content := by
  induction h with
  | nil => exact ⟨_, rfl, rfl⟩
  | @cons c cs s r s₁ rs s' hr ha ht ih =>
    have hs₁ := apply_wf hs ha
    obtain ⟨d1, k1, k2⟩ := ih hs₁ (by
      intro pre c' post s₀ e h0
      refine hl (c :: pre) c' post s₀ (by rw [e]; rfl) ?_
      simp [Change.applyAll, ha, h0])
    obtain ⟨r₀, d₂, e1, e2, e3⟩ := (revert_undoes_iff hs ha).2 (hl [] c cs s rfl rfl)
    rw [hr] at e1
    cases e1
    have hd1 : d1.WF := applyAll_wf (takenFrom_wf ht hs₁) k1
    have e2' : Change.applyAll [r] s₁ = .ok d₂ := by simp [Change.applyAll, e2]
    obtain ⟨d3, k3, k4⟩ := applyAll_ok_of_content hs₁ hd1 k2.symm e2'
    refine ⟨d3, ?_, k4.trans e3⟩
    rw [List.reverse_cons, applyAll_append, k1]
    exact k3

/-- The column of a table, in the content. -/
def colAt (C : Content) (s t n : String) : Option Column :=
  match C s with
  | some sc =>
    match sc.relations t with
    | some (.table tb) => tb.columns n
    | _ => none
  | none => none

theorem effect_addColumn {s t n ty : String} {nn : Bool} {df : Option String} {C C₁ : Content}
    (h : Spec.effect (.addColumn s t n ty nn df) C = some C₁) (nn' : Bool) :
    ∃ C₂, Spec.effect (.addColumn s t n ty nn' df) C = some C₂ ∧
      (C₁ = C₂ → nn = nn') := by
  simp only [Spec.effect, Spec.inTable, Spec.inSchema, Spec.alter] at h ⊢
  cases hs : C s with
  | none => rw [hs] at h; cases h
  | some sc =>
    rw [hs] at h
    simp only [Spec.onRels] at h ⊢
    cases ht : sc.relations t with
    | none => rw [ht] at h; cases h
    | some r =>
      rw [ht] at h
      cases r with
      | table tb =>
        simp only [Spec.onCols, Spec.putNew] at h ⊢
        cases hn : tb.columns n with
        | some c => rw [hn] at h; cases h
        | none =>
          rw [hn] at h
          simp only [Option.map_some, Option.some.injEq] at h ⊢
          refine ⟨_, rfl, ?_⟩
          subst h
          intro h
          have := congrArg (fun C => (colAt C s t n).map Column.notNull) h
          simpa [colAt, Spec.upd] using this
      | view v => cases h
      | index v => cases h
      | sequence v => cases h

theorem effect_createTable {s t : String} {cols : List NewColumn} {C C₁ : Content}
    (h : Spec.effect (.createTable s t cols) C = some C₁) :
    ∃ C₂, Spec.effect (.createTable s t (cols.map fun c => { c with notNull := false })) C = some C₂ ∧
      (C₁ = C₂ → ∀ c ∈ cols, c.notNull = false) := by
  have hnames : (cols.map fun c => ({ c with notNull := false } : NewColumn)).map NewColumn.name =
      cols.map NewColumn.name := by rw [List.map_map]; rfl
  simp only [Spec.effect, Spec.inSchema, Spec.alter, hnames] at h ⊢
  cases hs : C s with
  | none => rw [hs] at h; cases h
  | some sc =>
    rw [hs] at h
    simp only [Spec.onRels] at h ⊢
    split at h
    · next hnd =>
      simp only [hnd, if_true, Spec.putNew] at h ⊢
      cases ht : sc.relations t with
      | some r => rw [ht] at h; cases h
      | none =>
        rw [ht] at h
        simp only [Option.map_some, Option.some.injEq] at h ⊢
        refine ⟨_, rfl, ?_⟩
        subst h
        intro h c hc
        have := congrArg (fun C => (colAt C s t c.name).map Column.notNull) h
        simp only [colAt, Spec.upd, if_true, List.map_map] at this
        have key : ∀ f : NewColumn → Bool,
            (columnNamed (cols.map fun n => (⟨s, t, n.name, n.dataType, f n, n.default⟩ : Column))
              c.name).map Column.notNull = some (f c) := by
          intro f
          unfold columnNamed
          clear this h hs ht hnames C
          induction cols with
          | nil => cases hc
          | cons x xs ih =>
            simp only [List.map_cons, List.nodup_cons] at hnd
            rw [List.map_cons, List.find?_cons]
            rcases List.mem_cons.1 hc with rfl | hm
            · simp
            · have hne : x.name ≠ c.name := by
                intro he
                exact hnd.1 (by rw [he]; exact List.mem_map_of_mem hm)
              simp only [beq_eq_false_iff_ne.2 hne]
              exact ih hnd.2 hm
        rw [key] at this
        have h2 := key fun _ => false
        simp only [Function.comp_def] at this
        rw [h2] at this
        simpa using this
    · cases h

theorem revert_dropColumn {s t c : String} {d : Database} {C : Content} {r : Change} (hd : d.WF)
    (h : Spec.effect (.dropColumn s t c) d.content = some C)
    (hr : (Change.dropColumn s t c).revert d = .ok r) :
    ∃ ty nn df, r = .addColumn s t c ty nn df ∧ Spec.effect r C = some d.content := by
  obtain ⟨r', h1, h2⟩ := revert_effect hd h id
  rw [hr] at h1
  cases h1
  obtain ⟨sc, tb, I, w, hw⟩ := inTable_model hd h
  obtain ⟨m, hm, _⟩ := onCols_some hw
  obtain ⟨⟨x, hx, _⟩, _⟩ := remove_some hm
  have hxn : x.name = c := columnNamed_name hx
  refine ⟨x.dataType, x.notNull, x.default, ?_, h2⟩
  rw [Change.revert, lookColumn_of I.schema I.table hx] at hr
  simp only [I.sname, I.tname, hxn, Except.ok.injEq] at hr
  exact hr.symm

/-- The stage is on top of the version the history is on. -/
theorem stage_previous {d : HDir} (hr : Reachable d) {cv : String} (ho : Opens d cv) {st : Version}
    (hst : Stored d "stage" st) : st.previous = some cv ∧ ∃ v, Stored d cv v := by
  obtain ⟨vs, st₀, s, hh, hrec⟩ := hr.sound
  cases hst.unique hh.stored_stage
  obtain ⟨nm, _, hfrom⟩ := hh.fromDir
  obtain ⟨f, nm₁, h1⟩ := ho
  have h2 := fromDir_mono (Nat.le_max_left f (vs.length + 2)) h1
  rw [hfrom _ (by omega)] at h2
  simp only [Option.some.injEq, Except.ok.injEq, HDir.Opened.mk.injEq] at h2
  rw [← h2.2]
  refine ⟨hh.prev, ?_⟩
  rcases List.eq_nil_or_concat vs with rfl | ⟨vs', v, rfl⟩
  · exact ⟨_, hh.stored_init⟩
  · refine ⟨v, ?_⟩
    have := hh.stored (v := v) (by simp)
    simpa using this

/-- `stage` leaves the snapshot of the current version as it was. -/
theorem stage_keeps_snapshot {d d' : HDir} (hr : Reachable d) {cv : String} (ho : Opens d cv)
    {defs : Except LoadError Database} {fuel : Nat} {ok : Bool}
    (he : HistCmd.exec fuel (.stage defs) d = some (d', ok)) {s₀ : Database} (hs₀ : SnapshotOf d cv s₀) :
    SnapshotOf d' cv s₀ := by
  obtain ⟨vs, st, s, hh, hrec⟩ := hr.sound
  obtain ⟨st', hh'⟩ := Prog.plan_stage_history hh hrec he
  obtain ⟨nm, _, hfrom⟩ := hh.fromDir
  obtain ⟨f, nm₁, h1⟩ := ho
  have h2 := fromDir_mono (Nat.le_max_left f (vs.length + 2)) h1
  rw [hfrom _ (by omega)] at h2
  simp only [Option.some.injEq, Except.ok.injEq, HDir.Opened.mk.injEq] at h2
  obtain ⟨s₁, hr₁, _⟩ := (recorded_append (l := Version.newInit :: vs)).1 hrec
  have key : ∀ (A : List Version) (v : Version), Version.newInit :: vs = A ++ [v] → v.name = cv →
      SnapshotOf d' cv s₀ := by
    intro A v hA hn
    rw [hA] at hr₁
    have e : ∀ x, Version.newInit :: (vs ++ [x]) = A ++ v :: [x] := by
      intro x; rw [← List.cons_append, hA]; simp
    have ha := hh.snapshotOf (e st) hr₁
    have hb := hh'.snapshotOf (e st') hr₁
    rw [hn] at ha hb
    have := ha.unique hs₀
    subst this
    exact hb
  rcases List.eq_nil_or_concat vs with rfl | ⟨vs', v, rfl⟩
  · exact key [] _ rfl h2.2
  · exact key (Version.newInit :: vs') v (by simp) (by simpa using h2.2)

end Pg
end Podo
