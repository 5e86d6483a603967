import Verif.Proofs.Chain
import Verif.Proofs.Wf
import Verif.Proofs.Stage
import Verif.Spec.Commands
/-
What the commands do to a history.
-/
set_option linter.unusedSimpArgs false
namespace Podo

/-! ### Saving -/

theorem save_get {d d' : HDir} {v : Version} (h : d.save v = some d') (f : String) :
    d'.get? f = if f = v.name ++ ".yaml" then some (.file (some v)) else d.get? f := by
  unfold HDir.save at h
  split at h
  · cases h
  · split at h
    · cases h
    · next c hc =>
      cases h
      rw [AMap.get?_set _ _ _ _ (by rw [hc]; rfl)]
    · next hc =>
      cases h
      rw [AMap.get?_insertNew _ _ _ _ hc]

theorem save_nodup {d d' : HDir} {v : Version} (hd : d.NodupKeys) (h : d.save v = some d') :
    d'.NodupKeys := by
  unfold HDir.save at h
  split at h
  · cases h
  · split at h
    · cases h
    · cases h; exact AMap.nodupKeys_set hd _ _
    · next hc => cases h; exact AMap.nodupKeys_insertNew hd hc

theorem save_some {d : HDir} {v : Version} (hn : '/' ∉ v.name.toList)
    (hd : d.get? (v.name ++ ".yaml") ≠ some .dir) : ∃ d', d.save v = some d' := by
  unfold HDir.save
  rw [if_neg (by simpa using hn)]
  split
  · next h => exact absurd h hd
  · exact ⟨_, rfl⟩
  · exact ⟨_, rfl⟩

namespace IsHistory
variable {d : HDir} {vs : List Version} {st : Version}

theorem perm (h : IsHistory d vs st) {d' : HDir} (hp : d.Perm d') : IsHistory d' vs st where
  nodup := (AMap.nodupKeys_perm hp).1 h.nodup
  files n e := by rw [← AMap.get?_perm h.nodup hp]; exact h.files n e
  linked := h.linked
  names := h.names
  stage := h.stage
  plain := h.plain

theorem prev (h : IsHistory d vs st) :
    st.previous = some (((vs.map Version.name).getLast?).getD "init") := by
  have hl := h.linked
  rw [show Version.newInit :: (vs ++ [st]) = (Version.newInit :: vs) ++ [st] from rfl,
    Linked.append] at hl
  have := hl.2.1
  rw [this]
  simp only [List.getLast?_cons, Option.map_some, Option.or_none, List.getLast?_map]
  cases vs.getLast? <;> simp [Version.newInit, Version.INIT]

/-- Replacing the stage. -/
theorem saveStage (h : IsHistory d vs st) {st' : Version} (hn : st'.name = "stage")
    (hp : st'.previous = st.previous) :
    ∃ d', d.save st' = some d' ∧ IsHistory d' vs st' := by
  have hs : d.get? ("stage" ++ ".yaml") = some (.file (some st)) := h.stored_stage
  obtain ⟨d', hd'⟩ := save_some (d := d) (v := st') (by rw [hn]; decide) (by rw [hn, hs]; simp)
  refine ⟨d', hd', ⟨save_nodup h.nodup hd', ?_, ?_, h.names, hn, h.plain⟩⟩
  · intro n e
    rw [save_get hd', hn]
    have hnames := h.names'
    have hin : ∀ v, v ∈ Version.newInit :: vs → v.name ≠ "stage" := by
      intro v hv he
      have : v = st := eq_of_name hnames (by
        rcases List.mem_cons.1 hv with h | h
        · simp [h]
        · simp [h]) (by simp) (he.trans h.stage.symm)
      subst this
      rw [show Version.newInit :: (vs ++ [v]) = (Version.newInit :: vs) ++ [v] from rfl,
        List.map_append, List.nodup_append] at hnames
      exact hnames.2.2 v.name (List.mem_map_of_mem hv) v.name (by simp) rfl
    by_cases hc : n ++ ".yaml" = "stage" ++ ".yaml"
    · rw [if_pos hc]
      have hc := append_yaml_inj hc
      subst hc
      constructor
      · intro he
        simp only [Option.some.injEq] at he
        exact ⟨st', by simp, hn, he.symm⟩
      · rintro ⟨v, hv, hvn, rfl⟩
        rcases List.mem_cons.1 hv with rfl | hv
        · exact absurd hvn (hin _ (by simp))
        · rcases List.mem_append.1 hv with hv | hv
          · exact absurd hvn (hin _ (by simp [hv]))
          · simp only [List.mem_cons, List.not_mem_nil, or_false] at hv
            rw [hv]
    · rw [if_neg hc, h.files]
      have hc' : n ≠ "stage" := fun h => hc (by rw [h])
      constructor
      · rintro ⟨v, hv, hvn, he⟩
        refine ⟨v, ?_, hvn, he⟩
        simp only [List.mem_cons, List.mem_append, List.not_mem_nil, or_false] at hv ⊢
        rcases hv with hv | hv | hv
        · exact .inl hv
        · exact .inr (.inl hv)
        · exact absurd (hvn.symm.trans (hv ▸ h.stage)) hc'
      · rintro ⟨v, hv, hvn, he⟩
        refine ⟨v, ?_, hvn, he⟩
        simp only [List.mem_cons, List.mem_append, List.not_mem_nil, or_false] at hv ⊢
        rcases hv with hv | hv | hv
        · exact .inl hv
        · exact .inr (.inl hv)
        · exact absurd (hvn.symm.trans (hv ▸ hn)) hc'
  · have := h.linked
    rw [show ∀ x, Version.newInit :: (vs ++ [x]) = (Version.newInit :: vs) ++ [x] from fun _ => rfl,
      Linked.append] at this ⊢
    refine ⟨this.1, ?_⟩
    simp only [Linked, and_true] at this ⊢
    rw [hp]; exact this.2

theorem fresh_not_mem (h : IsHistory d vs st) {n : String} (hf : d.get? (n ++ ".yaml") = none) :
    ∀ v ∈ Version.newInit :: (vs ++ [st]), v.name ≠ n := by
  rintro v hv rfl
  have := h.stored hv
  unfold Stored at this
  rw [hf] at this; cases this

/-- The directory in between the two saves of `make`. -/
theorem saveMade (h : IsHistory d vs st) {n : String} (hf : d.get? (n ++ ".yaml") = none)
    (hsl : '/' ∉ n.toList) :
    ∃ d₁, d.save { st with name := n } = some d₁ ∧ d₁.NodupKeys ∧
      (∀ m, d₁.get? (m ++ ".yaml") = if m = n then some (.file (some { st with name := n }))
        else d.get? (m ++ ".yaml")) := by
  obtain ⟨d₁, hd₁⟩ := save_some (d := d) (v := { st with name := n }) hsl (by simp [hf])
  refine ⟨d₁, hd₁, save_nodup h.nodup hd₁, fun m => ?_⟩
  rw [save_get hd₁]
  by_cases hm : m = n
  · simp [hm]
  · rw [if_neg hm, if_neg (fun he => hm (append_yaml_inj he))]

theorem make (h : IsHistory d vs st) {n : String} (hf : FreshName d n) (hsl : '/' ∉ n.toList) :
    ∃ d', d.saveAll [{ st with name := n }, Version.newStage n] = (d', true) ∧
      IsHistory d' (vs ++ [{ st with name := n }]) (Version.newStage n) := by
  obtain ⟨d₁, hd₁, hnd₁, hg₁⟩ := h.saveMade hf.1 hsl
  have hfresh := h.fresh_not_mem hf.1
  have hns : n ≠ "stage" := fun he => hfresh st (by simp) (h.stage.trans he.symm)
  have hstage₁ : d₁.get? ("stage" ++ ".yaml") = some (.file (some st)) := by
    rw [hg₁, if_neg (Ne.symm hns)]; exact h.stored_stage
  obtain ⟨d', hd'⟩ := save_some (d := d₁) (v := Version.newStage n)
    (by simp [Version.newStage, Version.STAGE])
    (by simp only [Version.newStage, Version.STAGE]; rw [hstage₁]; simp)
  refine ⟨d', by simp only [HDir.saveAll, hd₁, hd'], ?_⟩
  have hg' : ∀ m, d'.get? (m ++ ".yaml") = if m = "stage" then some (.file (some (Version.newStage n)))
      else if m = n then some (.file (some { st with name := n })) else d.get? (m ++ ".yaml") := by
    intro m
    rw [save_get hd', hg₁]
    by_cases hm : m = "stage"
    · simp [hm, Version.newStage, Version.STAGE]
    · rw [if_neg hm, if_neg (fun he : m ++ ".yaml" = (Version.newStage n).name ++ ".yaml" =>
        hm (append_yaml_inj he))]
  have hnames := h.names'
  have hvs : ∀ v ∈ Version.newInit :: vs, v.name ≠ "stage" := by
    intro v hv he
    rw [show Version.newInit :: (vs ++ [st]) = (Version.newInit :: vs) ++ [st] from rfl,
      List.map_append, List.nodup_append] at hnames
    exact hnames.2.2 v.name (List.mem_map_of_mem hv) st.name (by simp) (he.trans h.stage.symm)
  refine ⟨save_nodup hnd₁ hd', ?_, ?_, ?_, rfl, ?_⟩
  · intro m e
    rw [hg']
    by_cases hm : m = "stage"
    · subst hm
      rw [if_pos rfl]
      constructor
      · intro he
        simp only [Option.some.injEq] at he
        exact ⟨Version.newStage n, by simp, rfl, he.symm⟩
      · rintro ⟨v, hv, hvn, rfl⟩
        simp only [List.mem_cons, List.mem_append, List.not_mem_nil, or_false] at hv
        rcases hv with hv | (hv | hv) | hv
        · exact absurd hvn (hvs _ (by simp [hv]))
        · exact absurd hvn (hvs _ (by simp [hv]))
        · subst hv; exact absurd hvn hns
        · rw [hv]
    · rw [if_neg hm]
      by_cases hmn : m = n
      · subst hmn
        rw [if_pos rfl]
        constructor
        · intro he
          simp only [Option.some.injEq] at he
          exact ⟨{ st with name := m }, by simp, rfl, he.symm⟩
        · rintro ⟨v, hv, hvn, rfl⟩
          simp only [List.mem_cons, List.mem_append, List.not_mem_nil, or_false] at hv
          rcases hv with hv | (hv | hv) | hv
          · exact absurd hvn (hfresh _ (by simp [hv]))
          · exact absurd hvn (hfresh _ (by simp [hv]))
          · rw [hv]
          · subst hv; exact absurd hvn.symm hm
      · rw [if_neg hmn, h.files]
        constructor
        · rintro ⟨v, hv, hvn, he⟩
          refine ⟨v, ?_, hvn, he⟩
          simp only [List.mem_cons, List.mem_append, List.not_mem_nil, or_false] at hv ⊢
          rcases hv with hv | hv | hv
          · exact .inl hv
          · exact .inr (.inl (.inl hv))
          · subst hv; exact absurd (hvn.symm.trans h.stage) hm
        · rintro ⟨v, hv, hvn, he⟩
          refine ⟨v, ?_, hvn, he⟩
          simp only [List.mem_cons, List.mem_append, List.not_mem_nil, or_false] at hv ⊢
          rcases hv with hv | (hv | hv) | hv
          · exact .inl hv
          · exact .inr (.inl hv)
          · subst hv; exact absurd hvn.symm hmn
          · subst hv; exact absurd hvn.symm hm
  · have := h.linked
    rw [show Version.newInit :: (vs ++ [{ st with name := n }] ++ [Version.newStage n])
        = (Version.newInit :: vs) ++ [{ st with name := n }, Version.newStage n] by simp,
      Linked.append]
    rw [show Version.newInit :: (vs ++ [st]) = (Version.newInit :: vs) ++ [st] from rfl,
      Linked.append] at this
    refine ⟨this.1, ?_⟩
    simp only [Linked, and_true] at this ⊢
    exact ⟨this.2, rfl⟩
  · have h1 := h.names
    simp only [List.map_append, List.map_cons, List.map_nil] at h1 ⊢
    have h2 : n ∉ "init" :: vs.map Version.name := by
      intro hm
      rcases List.mem_cons.1 hm with rfl | hm
      · exact hfresh Version.newInit (by simp) rfl
      · obtain ⟨v, hv, hvn⟩ := List.mem_map.1 hm
        exact hfresh v (by simp [hv]) hvn
    rw [List.nodup_append] at h1 ⊢
    obtain ⟨h3, h4, h5⟩ := h1
    rw [show "init" :: (vs.map Version.name ++ [n]) = ("init" :: vs.map Version.name) ++ [n] from rfl,
      List.nodup_append]
    refine ⟨⟨h3, by simp, ?_⟩, h4, ?_⟩
    · intro a ha b hb
      simp only [List.mem_cons, List.not_mem_nil, or_false] at hb
      subst hb
      intro he; subst he; exact h2 ha
    · intro a ha b hb
      rcases List.mem_append.1 ha with ha | ha
      · exact h5 a ha b hb
      · simp only [List.mem_cons, List.not_mem_nil, or_false] at ha hb
        subst ha; subst hb; exact hns
  · intro v hv stem
    rcases List.mem_append.1 hv with hv | hv
    · exact h.plain v hv stem
    · simp only [List.mem_cons, List.not_mem_nil, or_false] at hv
      subst hv; exact hf.2 stem

/-- The snapshot of a version is the replay of all changes up to it. -/
theorem calculate_prefix (h : IsHistory d vs st) {B C : List Version} (hl : vs ++ [st] = B ++ C)
    {s : Database}
    (ha : Change.applyAll ((Version.newInit :: B).flatMap Version.changes) Database.new = .ok s) :
    SnapshotOf d ((B.getLast?.map Version.name).getD "init") s := by
  refine ⟨B.length + 1, ?_⟩
  unfold calculateSnapshot
  have hp := h.path (A := []) (u := Version.newInit) (B := B) (C := C) (by simp [hl])
  have := h.range hp (k := B.length + 1) (by simp)
  rw [show Version.INIT = "init" from rfl]
  rw [show Version.newInit.name = "init" from rfl] at this
  rw [this]
  simp only [Podo.stored_iff.1 h.stored_init]
  rw [List.flatMap_cons, applyAll_append] at ha
  cases hc : Change.applyAll Version.newInit.changes Database.new with
  | error e => rw [hc] at ha; cases ha
  | ok s₁ =>
    rw [hc] at ha
    simp only
    rw [h.replay (fun v hv => List.mem_cons_of_mem _ (by rw [hl]; simp [hv])) ha]

end IsHistory

/-! ### Fuel -/

theorem calculate_mono {d : HDir} {n m : Nat} {v : String} {r : Except CmdError Database}
    (hnm : n ≤ m) (h : calculateSnapshot n d v = some r) : calculateSnapshot m d v = some r := by
  unfold calculateSnapshot at h ⊢
  cases hu : HDir.upwardRange n d Version.INIT v with
  | none => rw [hu] at h; cases h
  | some x => rw [hu] at h; rw [upwardRange_mono hnm hu]; exact h

theorem plan_mono {c : HistCmd} {d : HDir} {n m : Nat} {r : Except CmdFail (List Version)}
    (hnm : n ≤ m) (h : c.plan n d = some r) : c.plan m d = some r := by
  cases c with
  | init => exact h
  | stage defs =>
    simp only [HistCmd.plan, stagePlan] at h ⊢
    cases hf : HDir.fromDir n d with
    | none => rw [hf] at h; cases h
    | some x =>
      rw [hf] at h; rw [fromDir_mono hnm hf]
      cases x with
      | error e => exact h
      | ok o =>
        cases defs with
        | error e => exact h
        | ok t =>
          simp only at h ⊢
          cases hc : calculateSnapshot n d Version.STAGE with
          | none => rw [hc] at h; cases h
          | some y => rw [hc] at h; rw [calculate_mono hnm hc]; exact h
  | make stamp label =>
    simp only [HistCmd.plan, makePlan] at h ⊢
    cases hf : HDir.fromDir n d with
    | none => rw [hf] at h; cases h
    | some x => rw [hf] at h; rw [fromDir_mono hnm hf]; exact h
  | reset =>
    simp only [HistCmd.plan, resetPlan] at h ⊢
    cases hf : HDir.fromDir n d with
    | none => rw [hf] at h; cases h
    | some x => rw [hf] at h; rw [fromDir_mono hnm hf]; exact h

theorem exec_mono {c : HistCmd} {d d' : HDir} {n m : Nat} {ok : Bool}
    (hnm : n ≤ m) (h : c.exec n d = some (d', ok)) : c.exec m d = some (d', ok) := by
  unfold HistCmd.exec at h ⊢
  cases hp : c.plan n d with
  | none => rw [hp] at h; cases h
  | some x => rw [hp] at h; rw [plan_mono hnm hp]; exact h

/-- A command has one outcome. -/
theorem Runs.unique {c : HistCmd} {d d₁ d₂ : HDir} {o₁ o₂ : Bool} (h₁ : Runs c d d₁ o₁)
    (h₂ : Runs c d d₂ o₂) : d₁ = d₂ ∧ o₁ = o₂ := by
  obtain ⟨n, h₁⟩ := h₁
  obtain ⟨m, h₂⟩ := h₂
  have a := exec_mono (Nat.le_max_left n m) h₁
  have b := exec_mono (Nat.le_max_right n m) h₂
  rw [a] at b; cases b; exact ⟨rfl, rfl⟩

/-! ### The staging loop -/

theorem TakenFrom.applyAll {cs rs : List Change} {s s' : Database} (h : TakenFrom cs s rs s') :
    Change.applyAll cs s = .ok s' := by
  induction h with
  | nil => rfl
  | cons hr ha _ ih => rw [Change.applyAll, ha]; exact ih

theorem TakenFrom.length {cs rs : List Change} {s s' : Database} (h : TakenFrom cs s rs s') :
    rs.length = cs.length := by
  induction h with
  | nil => rfl
  | cons _ _ _ ih => simp [ih]

theorem TakenFrom.append {cs cs' rs rs' : List Change} {s s₁ s' : Database}
    (h : TakenFrom cs s rs s₁) (h' : TakenFrom cs' s₁ rs' s') :
    TakenFrom (cs ++ cs') s (rs ++ rs') s' := by
  induction h with
  | nil => exact h'
  | cons hr ha _ ih => exact .cons hr ha (ih h')

theorem stageVersion_ok {cs : List Change} {s : Database} {v v' : Version}
    (h : stageVersion cs s v = .ok v') : ∃ rs s', TakenFrom cs s rs s' ∧
      v' = { v with changes := v.changes ++ cs, up := v.up ++ cs.map Change.renderSql,
                    down := (rs.reverse).map Change.renderSql ++ v.down } := by
  induction cs generalizing s v with
  | nil =>
    simp only [stageVersion, Except.ok.injEq] at h
    exact ⟨[], s, .nil, by simp [h]⟩
  | cons c cs ih =>
    rw [stageVersion] at h
    cases hr : c.revert s with
    | error e => rw [hr] at h; cases h
    | ok r =>
      rw [hr] at h
      simp only at h
      cases ha : c.apply s with
      | error e => rw [ha] at h; cases h
      | ok s₁ =>
        rw [ha] at h
        obtain ⟨rs, s', ht, hv⟩ := ih h
        exact ⟨r :: rs, s', .cons hr ha ht, by
          rw [hv]; simp [Version.addChange, Version.addUp, Version.addDown]⟩

/-! ### The invariant -/

/-- The versions of a chain replay from a snapshot, and their scripts are those of their changes. -/
inductive Recorded : Database → List Version → Database → Prop where
  | nil {s} : Recorded s [] s
  | cons {v : Version} {s s₁ s' : Database} {rs : List Change} {rest : List Version} :
      TakenFrom v.changes s rs s₁ → v.up = v.changes.map Change.renderSql →
      v.down = rs.reverse.map Change.renderSql → Recorded s₁ rest s' → Recorded s (v :: rest) s'

theorem Recorded.applyAll {s s' : Database} {l : List Version} (h : Recorded s l s') :
    Change.applyAll (l.flatMap Version.changes) s = .ok s' := by
  induction h with
  | nil => rfl
  | cons ht _ _ _ ih =>
    rw [List.flatMap_cons, applyAll_append, ht.applyAll]
    exact ih

theorem recorded_append {s s' : Database} {l m : List Version} :
    Recorded s (l ++ m) s' ↔ ∃ s₁, Recorded s l s₁ ∧ Recorded s₁ m s' := by
  induction l generalizing s with
  | nil =>
    constructor
    · intro h; exact ⟨s, .nil, h⟩
    · rintro ⟨s₁, h1, h2⟩; cases h1; exact h2
  | cons v l ih =>
    constructor
    · intro h
      cases h with
      | cons ht hu hd hr =>
        obtain ⟨s₂, h1, h2⟩ := ih.1 hr
        exact ⟨s₂, .cons ht hu hd h1, h2⟩
    · rintro ⟨s₁, h1, h2⟩
      cases h1 with
      | cons ht hu hd hr => exact .cons ht hu hd (ih.2 ⟨s₁, hr, h2⟩)

theorem recorded_single {s s' : Database} {v : Version} : Recorded s [v] s' ↔
    ∃ rs, TakenFrom v.changes s rs s' ∧ v.up = v.changes.map Change.renderSql ∧
      v.down = rs.reverse.map Change.renderSql := by
  constructor
  · intro h
    cases h with
    | cons ht hu hd hr => cases hr; exact ⟨_, ht, hu, hd⟩
  · rintro ⟨rs, ht, hu, hd⟩; exact .cons ht hu hd .nil

/-- What holds of every reachable directory. -/
def Sound (d : HDir) : Prop := ∃ vs st s, IsHistory d vs st ∧
  Recorded Database.new (Version.newInit :: (vs ++ [st])) s

theorem initDir_history : IsHistory initDir [] (Version.newStage "init") := by
  have he : initDir = [("init.yaml", .file (some Version.newInit)),
    ("stage.yaml", .file (some (Version.newStage "init")))] := rfl
  refine ⟨by decide, ?_, ⟨rfl, rfl, trivial⟩, by decide, rfl, by simp⟩
  intro n e
  rw [he]
  simp only [AMap.get?_cons, AMap.get?_nil, List.nil_append, List.mem_cons, List.not_mem_nil,
    or_false]
  by_cases h1 : n = "init"
  · subst h1
    constructor
    · intro h; cases h; exact ⟨_, .inl rfl, rfl, rfl⟩
    · rintro ⟨v, rfl | rfl, hn, rfl⟩
      · rfl
      · exact absurd hn (by decide)
  · have h1' : "init.yaml" ≠ n ++ ".yaml" := fun h =>
      h1 (append_yaml_inj (a := "init") h).symm
    rw [if_neg h1']
    by_cases h2 : n = "stage"
    · subst h2
      constructor
      · intro h; cases h; exact ⟨_, .inr rfl, rfl, rfl⟩
      · rintro ⟨v, rfl | rfl, hn, rfl⟩
        · exact absurd hn (by decide)
        · rfl
    · have h2' : "stage.yaml" ≠ n ++ ".yaml" := fun h =>
        h2 (append_yaml_inj (a := "stage") h).symm
      rw [if_neg h2']
      constructor
      · intro h; cases h
      · rintro ⟨v, rfl | rfl, hn, rfl⟩
        · exact absurd hn.symm h1
        · exact absurd hn.symm h2

theorem recorded_init : ∃ s, Recorded Database.new [Version.newInit] s := by
  have ht : TakenFrom [Change.createSchema "public"] Database.new [.dropSchema "public"]
      ⟨[("public", Schema.new "public")]⟩ := .cons rfl rfl .nil
  exact ⟨_, recorded_single.2 ⟨_, ht, rfl, rfl⟩⟩

theorem initDir_sound : Sound initDir := by
  obtain ⟨s, hs⟩ := recorded_init
  exact ⟨[], _, s, initDir_history,
    recorded_append (l := [Version.newInit]) |>.2 ⟨s, hs, recorded_single.2 ⟨[], .nil, rfl, rfl⟩⟩⟩

/-- What each command saves on a chain. -/
theorem plan_cases {d : HDir} {vs : List Version} {st : Version} (h : IsHistory d vs st) {c : HistCmd}
    {k : Nat} {ws : List Version} (hp : c.plan k d = some (.ok ws)) {s : Database}
    (hs : Recorded Database.new (Version.newInit :: (vs ++ [st])) s) :
    ws = [] ∨
    (∃ defs st', c = .stage (.ok defs) ∧ ws = [st'] ∧
      stageVersion (Diff.compareDiff s defs) s st = .ok st') ∨
    (∃ stamp label, c = .make stamp label ∧ st.isEmpty = false ∧
      ws = [{ st with name := madeName stamp label }, Version.newStage (madeName stamp label)]) ∨
    (c = .reset ∧ ws = [st.reset]) := by
  cases c with
  | init => simp only [HistCmd.plan, Option.some.injEq, Except.ok.injEq] at hp; exact .inl hp.symm
  | stage defs =>
    right; left
    simp only [HistCmd.plan, stagePlan] at hp
    split at hp
    · cases hp
    · cases hp
    · split at hp
      · cases hp
      · next target =>
        split at hp
        · cases hp
        · cases hp
        · next source hc =>
          have hcs := h.calculate hs.applyAll (k := max k (vs.length + 2)) (by omega)
          have := calculate_mono (Nat.le_max_left k (vs.length + 2)) hc
          rw [show Version.STAGE = "stage" from rfl, hcs] at this
          cases this
          rw [show Version.STAGE = "stage" from rfl, Podo.stored_iff.1 h.stored_stage] at hp
          simp only at hp
          split at hp
          · cases hp
          · next st' hst =>
            simp only [Option.some.injEq, Except.ok.injEq] at hp
            exact ⟨target, st', rfl, hp.symm, hst⟩
  | make stamp label =>
    simp only [HistCmd.plan, makePlan, Podo.stored_iff.1 h.stored_stage] at hp
    split at hp
    · cases hp
    · cases hp
    · split at hp
      · simp only [Option.some.injEq, Except.ok.injEq] at hp; exact .inl hp.symm
      · next he =>
        simp only [Option.some.injEq, Except.ok.injEq] at hp
        exact .inr (.inr (.inl ⟨stamp, label, rfl, by simpa using he, hp.symm⟩))
  | reset =>
    simp only [HistCmd.plan, resetPlan] at hp
    rw [show Version.STAGE = "stage" from rfl, Podo.stored_iff.1 h.stored_stage] at hp
    split at hp
    · cases hp
    · cases hp
    · simp only [Option.some.injEq, Except.ok.injEq] at hp
      exact .inr (.inr (.inr ⟨rfl, hp.symm⟩))

theorem saveAll_single {d d' : HDir} {v : Version} (h : d.save v = some d') :
    d.saveAll [v] = (d', true) := by simp [HDir.saveAll, h]

/-- How a command changes a chain: not at all, by staging, by making, or by resetting. -/
theorem exec_cases {d d' : HDir} {vs : List Version} {st : Version} (h : IsHistory d vs st)
    {c : HistCmd} {k : Nat} {ok : Bool} (he : c.exec k d = some (d', ok)) {s : Database}
    (hs : Recorded Database.new (Version.newInit :: (vs ++ [st])) s)
    (hfresh : ∀ stamp label, c = .make stamp label → FreshName d (madeName stamp label)) :
    d' = d ∨
    (∃ st' s', IsHistory d' vs st' ∧ st'.previous = st.previous ∧
      Recorded Database.new (Version.newInit :: (vs ++ [st'])) s') ∨
    (∃ n, FreshName d n ∧ IsHistory d' (vs ++ [{ st with name := n }]) (Version.newStage n) ∧
      Recorded Database.new (Version.newInit :: (vs ++ [{ st with name := n }, Version.newStage n])) s) := by
  unfold HistCmd.exec at he
  split at he
  · cases he
  · cases he; exact .inl rfl
  · next ws hws =>
    simp only [Option.some.injEq] at he
    rcases plan_cases h hws hs with rfl | ⟨defs, st', rfl, rfl, hst⟩ | ⟨stamp, label, rfl, hne, rfl⟩ |
      ⟨rfl, rfl⟩
    · simp only [HDir.saveAll, Prod.mk.injEq] at he; exact .inl he.1.symm
    · right; left
      obtain ⟨rs, s', ht, hst'⟩ := stageVersion_ok hst
      obtain ⟨d₁, hd₁, hh⟩ := h.saveStage (st' := st') (by rw [hst']; exact h.stage) (by rw [hst'])
      rw [saveAll_single hd₁] at he
      cases he
      refine ⟨st', s', hh, by rw [hst'], ?_⟩
      rw [show ∀ x, Version.newInit :: (vs ++ [x]) = (Version.newInit :: vs) ++ [x] from
        fun _ => rfl] at hs ⊢
      obtain ⟨s₁, h1, h2⟩ := recorded_append.1 hs
      obtain ⟨rs₁, ht₁, hu₁, hd₁⟩ := recorded_single.1 h2
      refine recorded_append.2 ⟨s₁, h1, recorded_single.2 ⟨rs₁ ++ rs, ?_, ?_, ?_⟩⟩
      · rw [hst']; exact ht₁.append ht
      · rw [hst']; simp [hu₁]
      · rw [hst']; simp [hd₁]
    · by_cases hsl : '/' ∈ (madeName stamp label).toList
      · left
        simp only [HDir.saveAll] at he
        have : d.save { st with name := madeName stamp label } = none := by
          unfold HDir.save; rw [if_pos (by simpa using hsl)]
        rw [this] at he
        cases he; rfl
      · right; right
        have hf := hfresh stamp label rfl
        obtain ⟨d₁, hd₁, hh⟩ := h.make hf hsl
        rw [hd₁] at he
        cases he
        refine ⟨_, hf, hh, ?_⟩
        rw [show ∀ x, Version.newInit :: (vs ++ [x]) = (Version.newInit :: vs) ++ [x] from
          fun _ => rfl] at hs
        rw [show ∀ x y, Version.newInit :: (vs ++ [x, y]) = (Version.newInit :: vs) ++ [x, y] from
          fun _ _ => rfl]
        obtain ⟨s₁, h1, h2⟩ := recorded_append.1 hs
        obtain ⟨rs₁, ht₁, hu₁, hd₁⟩ := recorded_single.1 h2
        exact recorded_append.2 ⟨s₁, h1, .cons ht₁ hu₁ hd₁ (recorded_single.2 ⟨[], .nil, rfl, rfl⟩)⟩
    · right; left
      obtain ⟨d₁, hd₁, hh⟩ := h.saveStage (st' := st.reset) h.stage rfl
      rw [saveAll_single hd₁] at he
      cases he
      rw [show ∀ x, Version.newInit :: (vs ++ [x]) = (Version.newInit :: vs) ++ [x] from
        fun _ => rfl] at hs
      obtain ⟨s₁, h1, h2⟩ := recorded_append.1 hs
      exact ⟨_, s₁, hh, rfl, recorded_append (l := Version.newInit :: vs) |>.2
        ⟨s₁, h1, recorded_single.2 ⟨[], .nil, rfl, rfl⟩⟩⟩

theorem Reachable.sound {d : HDir} (h : Reachable d) : Sound d := by
  induction h with
  | init => exact initDir_sound
  | relisted _ hp ih =>
    obtain ⟨vs, st, s, hh, hr⟩ := ih
    exact ⟨vs, st, s, hh.perm hp, hr⟩
  | step _ hf he ih =>
    obtain ⟨vs, st, s, hh, hr⟩ := ih
    rcases exec_cases hh he hr hf with rfl | ⟨st', s', h1, _, h2⟩ | ⟨n, _, h1, h2⟩
    · exact ⟨vs, st, s, hh, hr⟩
    · exact ⟨vs, st', s', h1, h2⟩
    · exact ⟨_, _, s, h1, by simpa using h2⟩

/-! ### Snapshots of versions -/

theorem SnapshotOf.unique {d : HDir} {n : String} {s s' : Database} (h : SnapshotOf d n s)
    (h' : SnapshotOf d n s') : s = s' := by
  obtain ⟨k, hk⟩ := h
  obtain ⟨m, hm⟩ := h'
  have a := calculate_mono (Nat.le_max_left k m) hk
  have b := calculate_mono (Nat.le_max_right k m) hm
  rw [a] at b; cases b; rfl

theorem IsHistory.snapshotOf {d : HDir} {vs : List Version} {st : Version} (h : IsHistory d vs st)
    {A C : List Version} {v : Version} (hl : Version.newInit :: (vs ++ [st]) = A ++ v :: C)
    {s : Database} (hr : Recorded Database.new (A ++ [v]) s) : SnapshotOf d v.name s := by
  cases A with
  | nil =>
    simp only [List.nil_append, List.cons.injEq] at hl
    obtain ⟨rfl, _⟩ := hl
    exact h.calculate_prefix (B := []) (C := vs ++ [st]) rfl hr.applyAll
  | cons a A =>
    simp only [List.cons_append, List.cons.injEq] at hl
    obtain ⟨rfl, hl⟩ := hl
    have := h.calculate_prefix (B := A ++ [v]) (C := C) (by rw [hl]; simp) hr.applyAll
    simpa using this

/-- The predecessor of each version of a chain is the one before it. -/
theorem Linked.prev_last {p : Option String} {A C : List Version} {v : Version}
    (h : Linked p (A ++ v :: C)) : v.previous = ((A.getLast?).map Version.name).or p := by
  rw [Linked.append] at h
  exact h.2.1

/-! ### Directories that fail to open -/

theorem reads_append (d : HDir) (l m : List (String × Entry)) :
    reads d (l ++ m) = reads d l ++ reads d m := by
  unfold reads; rw [List.filter_append, List.map_append]

theorem reads_file (d : HDir) {n : String} {c : Option Version} {l : List (String × Entry)}
    (hp : ∀ stem, n ≠ stem ++ ".yaml") :
    reads d ((n ++ ".yaml", .file c) :: l) = d.getVersion n :: reads d l := by
  have h : endsYaml (n ++ ".yaml") = true := endsYaml_iff.2 ⟨n, rfl⟩
  unfold reads
  rw [List.filter_cons_of_pos (by simp [h])]
  simp only [List.map_cons, trimYaml_append hp]

theorem links_append (a b : List (Except FSError Version)) : links (a ++ b) = links a ++ links b := by
  unfold links; rw [List.filterMap_append]

theorem fails_of_scan {d : HDir} (h : ∀ nm, HDir.scan d d [] ≠ .ok nm) : FailsToOpen d := by
  obtain ⟨e, _, hk⟩ := fromDir_error_of_scan h
  exact ⟨0, e, hk 0⟩

/-- A file whose text does not deserialize. -/
theorem fails_of_unreadable {d : HDir} {n : String} (hp : ∀ stem, n ≠ stem ++ ".yaml")
    (h : d.get? (n ++ ".yaml") = some (.file none)) : FailsToOpen d := by
  refine fails_of_scan fun nm hnm => ?_
  have hall := ((scan_ok_iff _ _ _ _ AMap.nodupKeys_nil).1 hnm).1
  obtain ⟨l, m, hlm⟩ := List.append_of_mem (AMap.mem_of_get? h)
  have : (.error .yaml : Except FSError Version) ∈ reads d d := by
    have hd2 : reads d d = reads d (l ++ (n ++ ".yaml", .file none) :: m) := congrArg _ hlm
    rw [hd2, reads_append, reads_file _ hp]
    unfold HDir.getVersion
    rw [h]
    simp
  obtain ⟨v, hv⟩ := hall _ this
  cases hv

/-- Two files that name the same predecessor. -/
theorem fails_of_branch {d : HDir} {a b p : String} {v w : Version}
    (ha : ∀ stem, a ≠ stem ++ ".yaml") (hb : ∀ stem, b ≠ stem ++ ".yaml") (hab : a ≠ b)
    (hv : Stored d a v) (hw : Stored d b w) (hvp : v.previous = some p) (hwp : w.previous = some p) :
    FailsToOpen d := by
  refine fails_of_scan fun nm hnm => ?_
  have hnd := ((scan_ok_iff _ _ _ _ AMap.nodupKeys_nil).1 hnm).2.1
  simp only [List.nil_append] at hnd
  have key : ∀ (l₁ l₂ l₃ : List (String × Entry)) (a b : String) (v w : Version),
      (∀ stem, a ≠ stem ++ ".yaml") → (∀ stem, b ≠ stem ++ ".yaml") → Stored d a v → Stored d b w →
      v.previous = some p → w.previous = some p →
      ¬ AMap.NodupKeys (links (reads d (l₁ ++ (a ++ ".yaml", .file (some v)) ::
        (l₂ ++ (b ++ ".yaml", .file (some w)) :: l₃)))) := by
    intro l₁ l₂ l₃ a b v w ha hb hv hw hvp hwp hn
    rw [reads_append, reads_file _ ha, reads_append, reads_file _ hb, stored_iff.1 hv,
      stored_iff.1 hw, links_append] at hn
    have e1 : ∀ rs, links (.ok v :: rs) = (p, v.name) :: links rs := by
      intro rs; simp [links, hvp]
    have e2 : ∀ rs, links (.ok w :: rs) = (p, w.name) :: links rs := by
      intro rs; simp [links, hwp]
    rw [e1, links_append, e2] at hn
    unfold AMap.NodupKeys AMap.keys at hn
    simp only [List.map_append, List.map_cons] at hn
    have := (List.nodup_append.1 hn).2.1
    simp at this
  obtain ⟨l, m, hlm⟩ := List.append_of_mem (AMap.mem_of_get? hv)
  have hmem := AMap.mem_of_get? hw
  have hd2 : reads d d = reads d (l ++ (a ++ ".yaml", .file (some v)) :: m) := congrArg _ hlm
  rw [hlm] at hmem
  rcases List.mem_append.1 hmem with hmem | hmem
  · obtain ⟨l₁, l₂, hl⟩ := List.append_of_mem hmem
    rw [hd2, hl] at hnd
    refine key l₁ l₂ m b a w v hb ha hw hv hwp hvp ?_
    simpa using hnd
  · rcases List.mem_cons.1 hmem with he | hmem
    · cases append_yaml_inj (congrArg Prod.fst he); exact hab rfl
    · obtain ⟨l₂, l₃, hl⟩ := List.append_of_mem hmem
      rw [hd2, hl] at hnd
      exact key l l₂ l₃ a b v w ha hb hv hw hvp hwp hnd

/-! ### Running make and reset -/

theorem stageVersion_of_done {cs : List Change} {s f : Database} {recorded downs : List Change}
    (h : stageLoop cs s [] [] = .done f recorded downs) (v : Version) :
    ∃ v', stageVersion cs s v = .ok v' := by
  induction cs generalizing s f recorded downs v with
  | nil => exact ⟨v, rfl⟩
  | cons c cs ih =>
    rw [stageLoop] at h
    rw [stageVersion]
    cases hr : c.revert s with
    | error e => rw [hr] at h; cases h
    | ok r =>
      rw [hr] at h
      simp only at h ⊢
      cases ha : c.apply s with
      | error e => rw [ha] at h; cases h
      | ok s₁ =>
        rw [ha] at h
        simp only at h ⊢
        rw [stageLoop_acc] at h
        cases hs : stageLoop cs s₁ [] [] with
        | error e => rw [hs] at h; cases h
        | panic e => rw [hs] at h; cases h
        | done f' r' w' => exact ih hs _

theorem save_get_newStage {d d' : HDir} {n : String} (h : d.save (Version.newStage n) = some d')
    (f : String) :
    d'.get? f = if f = "stage.yaml" then some (.file (some (Version.newStage n))) else d.get? f :=
  save_get h f

theorem Version.isEmpty_false {v : Version} (h : v.changes ≠ [] ∨ v.up ≠ [] ∨ v.down ≠ []) :
    v.isEmpty = false := by
  unfold Version.isEmpty
  rcases h with h | h | h
  · have : v.changes.length ≠ 0 := fun e => h (List.length_eq_zero_iff.1 e)
    simp [h]
  · simp [h]
  · simp [h]

theorem IsHistory.makePlan {d : HDir} {vs : List Version} {st : Version} (h : IsHistory d vs st)
    (hne : st.isEmpty = false) (stamp : String) (label : Option String) :
    ∃ k, (HistCmd.make stamp label).plan k d = some (.ok [{ st with name := madeName stamp label },
      Version.newStage (madeName stamp label)]) := by
  obtain ⟨nm, _, hf⟩ := h.fromDir
  refine ⟨vs.length + 2, ?_⟩
  simp only [HistCmd.plan, Podo.makePlan, hf (vs.length + 2) (by omega),
    Podo.stored_iff.1 h.stored_stage, hne]
  simp

theorem IsHistory.makeEmptyPlan {d : HDir} {vs : List Version} {st : Version} (h : IsHistory d vs st)
    (hne : st.isEmpty = true) (stamp : String) (label : Option String) :
    ∃ k, (HistCmd.make stamp label).plan k d = some (.ok []) := by
  obtain ⟨nm, _, hf⟩ := h.fromDir
  refine ⟨vs.length + 2, ?_⟩
  simp only [HistCmd.plan, Podo.makePlan, hf (vs.length + 2) (by omega),
    Podo.stored_iff.1 h.stored_stage, hne]
  simp

theorem IsHistory.resetPlan {d : HDir} {vs : List Version} {st : Version} (h : IsHistory d vs st) :
    ∃ k, HistCmd.reset.plan k d = some (.ok [st.reset]) := by
  obtain ⟨nm, _, hf⟩ := h.fromDir
  refine ⟨vs.length + 2, ?_⟩
  simp only [HistCmd.plan, Podo.resetPlan, hf (vs.length + 2) (by omega),
    show Version.STAGE = "stage" from rfl, Podo.stored_iff.1 h.stored_stage]

theorem IsHistory.stagePlan {d : HDir} {vs : List Version} {st : Version} (h : IsHistory d vs st)
    {s : Database} (hs : Recorded Database.new (Version.newInit :: (vs ++ [st])) s)
    {t : Database} {st' : Version} (hst : stageVersion (Diff.compareDiff s t) s st = .ok st') :
    ∃ k, (HistCmd.stage (.ok t)).plan k d = some (.ok [st']) := by
  obtain ⟨nm, _, hf⟩ := h.fromDir
  refine ⟨vs.length + 2, ?_⟩
  simp only [HistCmd.plan, Podo.stagePlan, hf (vs.length + 2) (by omega),
    show Version.STAGE = "stage" from rfl, h.calculate hs.applyAll (k := vs.length + 2) (by omega),
    Podo.stored_iff.1 h.stored_stage, hst]

theorem runs_of_plan {c : HistCmd} {d d' : HDir} {ok : Bool} {ws : List Version}
    (h : ∃ k, c.plan k d = some (.ok ws)) (hs : d.saveAll ws = (d', ok)) : Runs c d d' ok := by
  obtain ⟨k, hk⟩ := h
  exact ⟨k, by unfold HistCmd.exec; rw [hk, ← hs]⟩

theorem stageVersion_name : ∀ (cs : List Change) (s : Database) (v v' : Version),
    stageVersion cs s v = .ok v' → v'.name = v.name
  | [], _, v, v', h => by simp only [stageVersion] at h; cases h; rfl
  | c :: cs, s, v, v', h => by
    unfold stageVersion at h
    split at h
    · cases h
    · split at h
      · cases h
      · exact (stageVersion_name cs _ _ v' h).trans rfl

/-- What a command saves: the stage, or, for `make`, a version of the new name first. -/
theorem plan_names {fuel : Nat} {c : HistCmd} {d : HDir} {vs : List Version}
    (hs : ∀ v, d.getVersion "stage" = .ok v → v.name = "stage")
    (h : c.plan fuel d = some (.ok vs)) :
    vs = [] ∨ (∃ v, vs = [v] ∧ v.name = "stage") ∨
      ∃ stamp label v w, c = .make stamp label ∧ vs = [v, w] ∧ v.name = madeName stamp label ∧
        w.name = "stage" := by
  cases c with
  | init =>
    simp only [HistCmd.plan] at h
    cases h
    exact .inl rfl
  | stage defs =>
    simp only [HistCmd.plan, stagePlan] at h
    repeat' split at h
    all_goals first | cases h | skip
    rename_i hst _ _ hv
    refine .inr (.inl ⟨_, rfl, ?_⟩)
    rw [stageVersion_name _ _ _ _ hv]
    exact hs _ hst
  | reset =>
    simp only [HistCmd.plan, resetPlan] at h
    repeat' split at h
    all_goals first | cases h | skip
    rename_i st hst
    exact .inr (.inl ⟨st.reset, rfl, hs st hst⟩)
  | make stamp label =>
    simp only [HistCmd.plan, makePlan] at h
    split at h
    · cases h
    · cases h
    · split at h
      · cases h
      · split at h
        · injection h with h; injection h with h; exact .inl h.symm
        · injection h with h; injection h with h
          exact .inr (.inr ⟨stamp, label, _, _, rfl, h.symm, rfl, rfl⟩)

/-- Saving the versions of such a list keeps every file but those of the versions, whether or not the
process dies, and keeps the name of the stage. -/
structure Kept (fs : List String) (d d' : HDir) : Prop where
  nodup : d'.NodupKeys
  stage : ∀ v, d'.getVersion "stage" = .ok v → v.name = "stage"
  files : ∀ f, f ∉ fs → d'.get? f = d.get? f

theorem kept_trans {fs gs : List String} {d d₁ d' : HDir} (h : Kept fs d d₁) (h' : Kept gs d₁ d')
    (hg : ∀ g ∈ gs, g ∈ fs) : Kept fs d d' :=
  ⟨h'.nodup, h'.stage, fun f hf => by rw [h'.files f (fun hm => hf (hg f hm)), h.files f hf]⟩

theorem kept_save {d d' : HDir} {v : Version} (hd : d.NodupKeys)
    (hs : ∀ v, d.getVersion "stage" = .ok v → v.name = "stage") (h : d.save v = some d') :
    Kept [v.name ++ ".yaml"] d d' := by
  refine ⟨save_nodup hd h, fun w hw => ?_, fun f hf => ?_⟩
  · unfold HDir.getVersion at hw
    rw [save_get h] at hw
    by_cases e : "stage" ++ ".yaml" = v.name ++ ".yaml"
    · rw [if_pos e] at hw
      simp only at hw
      cases hw
      exact (append_yaml_inj e).symm
    · rw [if_neg e] at hw
      exact hs w hw
  · rw [save_get h, if_neg (by simpa using hf)]

theorem kept_set {d : HDir} {n : String} (hd : d.NodupKeys)
    (hs : ∀ v, d.getVersion "stage" = .ok v → v.name = "stage")
    (hi : (d.get? (n ++ ".yaml")).isSome) {e : Option Version} (he : ∀ v, e = some v → v.name = n) :
    Kept [n ++ ".yaml"] d (d.set (n ++ ".yaml") (.file e)) := by
  refine ⟨AMap.nodupKeys_set hd _ _, fun w hw => ?_, fun f hf => ?_⟩
  · unfold HDir.getVersion at hw
    rw [AMap.get?_set _ _ _ _ hi] at hw
    by_cases e' : "stage" ++ ".yaml" = n ++ ".yaml"
    · rw [if_pos e'] at hw
      cases e with
      | none => simp only at hw; cases hw
      | some v =>
        simp only at hw
        cases hw
        rw [he _ rfl]
        exact (append_yaml_inj e').symm
    · rw [if_neg e'] at hw
      exact hs w hw
  · rw [AMap.get?_set _ _ _ _ hi, if_neg (by simpa using hf)]

theorem kept_saveAll : ∀ (vs : List Version) (d : HDir), d.NodupKeys →
    (∀ v, d.getVersion "stage" = .ok v → v.name = "stage") →
    Kept (vs.map fun v => v.name ++ ".yaml") d (d.saveAll vs).1
  | [], d, hd, hs => ⟨hd, hs, fun _ _ => rfl⟩
  | v :: vs, d, hd, hs => by
    unfold HDir.saveAll
    cases h : d.save v with
    | none => exact ⟨hd, hs, fun _ _ => rfl⟩
    | some d₁ =>
      have h1 := kept_save hd hs h
      have h2 := kept_saveAll vs d₁ h1.nodup h1.stage
      exact ⟨h2.nodup, h2.stage, fun f hf => by
        simp only [List.map_cons, List.mem_cons, not_or] at hf
        rw [h2.files f hf.2, h1.files f (by simpa using hf.1)]⟩

theorem kept_crash {d d' : HDir} {vs : List Version} (h : CrashState d vs d') (hd : d.NodupKeys)
    (hs : ∀ v, d.getVersion "stage" = .ok v → v.name = "stage") :
    Kept (vs.map fun v => v.name ++ ".yaml") d d' := by
  induction h with
  | before d vs => exact ⟨hd, hs, fun _ _ => rfl⟩
  | @truncated d v vs dv h =>
    have h1 := kept_save hd hs h
    have h2 := kept_set (e := none) h1.nodup h1.stage (by rw [save_get h, if_pos rfl]; rfl)
      (fun _ h => by cases h)
    exact ⟨h2.nodup, h2.stage, fun f hf => by
      simp only [List.map_cons, List.mem_cons, not_or] at hf
      rw [h2.files f (by simpa using hf.1), h1.files f (by simpa using hf.1)]⟩
  | @cut d v vs dv l h _ =>
    have h1 := kept_save hd hs h
    have h2 := kept_set (e := some { v with down := l }) h1.nodup h1.stage
      (by rw [save_get h, if_pos rfl]; rfl) (fun _ h => by injection h with h; rw [← h])
    exact ⟨h2.nodup, h2.stage, fun f hf => by
      simp only [List.map_cons, List.mem_cons, not_or] at hf
      rw [h2.files f (by simpa using hf.1), h1.files f (by simpa using hf.1)]⟩
  | @saved d v vs dv d' h _ ih =>
    have h1 := kept_save hd hs h
    have h2 := ih h1.nodup h1.stage
    exact ⟨h2.nodup, h2.stage, fun f hf => by
      simp only [List.map_cons, List.mem_cons, not_or] at hf
      rw [h2.files f hf.2, h1.files f (by simpa using hf.1)]⟩

/-- One step, finished or not, keeps the files that are there, the stage apart. -/
theorem kept_step {fuel : Nat} {c : HistCmd} {d d' : HDir} {vs : List Version}
    (hs : ∀ v, d.getVersion "stage" = .ok v → v.name = "stage")
    (hf : ∀ stamp label, c = .make stamp label → d.get? (madeName stamp label ++ ".yaml") = none)
    (hp : c.plan fuel d = some (.ok vs)) (hk : Kept (vs.map fun v => v.name ++ ".yaml") d d')
    {f : String} (hfs : f ≠ "stage.yaml") {x : Entry} (hx : d.get? f = some x) :
    d'.get? f = some x := by
  rw [hk.files f, hx]
  intro hm
  rcases plan_names hs hp with rfl | ⟨v, rfl, hv⟩ | ⟨stamp, label, v, w, hc, rfl, hv, hw⟩
  · cases hm
  · simp only [List.map, List.mem_singleton, hv] at hm
    exact hfs hm
  · simp only [List.map, List.mem_cons, hv, hw, List.not_mem_nil, or_false] at hm
    rcases hm with rfl | hm
    · rw [hf stamp label hc] at hx; cases hx
    · exact hfs hm

theorem laterAny_kept {d d' : HDir} (hl : LaterAny d d') (hd : d.NodupKeys)
    (hs : ∀ v, d.getVersion "stage" = .ok v → v.name = "stage") :
    d'.NodupKeys ∧ (∀ v, d'.getVersion "stage" = .ok v → v.name = "stage") ∧
      ∀ f x, f ≠ "stage.yaml" → d.get? f = some x → d'.get? f = some x := by
  induction hl with
  | refl => exact ⟨hd, hs, fun _ _ _ h => h⟩
  | @relisted d₁ d' _ hp ih =>
    obtain ⟨h1, h2, h3⟩ := ih
    have hg : ∀ f, d₁.get? f = d'.get? f := fun f => AMap.get?_perm h1 hp f
    refine ⟨(hp.map _).nodup_iff.1 h1, fun v hv => h2 v ?_, fun f x hf hx => ?_⟩
    · unfold HDir.getVersion at hv ⊢; rw [hg]; exact hv
    · rw [← hg]; exact h3 f x hf hx
  | @step d₁ d' fuel c ok _ hf he ih =>
    obtain ⟨h1, h2, h3⟩ := ih
    unfold HistCmd.exec at he
    split at he
    · cases he
    · cases he
      exact ⟨h1, h2, h3⟩
    · rename_i vs hp
      injection he with he
      have hk := kept_saveAll vs d₁ h1 h2
      rw [he] at hk
      exact ⟨hk.nodup, hk.stage, fun f x hfs hx => kept_step h2 hf hp hk hfs (h3 f x hfs hx)⟩
  | @crash d₁ d' fuel c vs _ hf hp hc ih =>
    obtain ⟨h1, h2, h3⟩ := ih
    have hk := kept_crash hc h1 h2
    exact ⟨hk.nodup, hk.stage, fun f x hfs hx => kept_step h2 hf hp hk hfs (h3 f x hfs hx)⟩

end Podo
