import Verif.Spec.Repair
import Verif.Proofs.Merge
import Verif.Proofs.Data
import Verif.Proofs.FileConc
import Verif.Props.Pg
/-
Lemmas for C93.
-/
namespace Podo

theorem erase_insertNew {m : AMap Entry} {k : String} (h : m.get? k = none) (v : Entry) :
    (m.insertNew k v).erase k = m := by
  unfold AMap.erase AMap.insertNew
  rw [List.filter_append]
  have h1 : List.filter (fun p => p.1 != k) [(k, v)] = [] := by simp
  rw [h1, List.append_nil, List.filter_eq_self]
  intro p hp
  have : k ∉ m.keys := AMap.get?_eq_none_iff.1 h
  simp only [bne_iff_ne, ne_eq]
  intro e
  exact this (e ▸ List.mem_map_of_mem hp)

theorem set_insertNew {m : AMap Entry} {k : String} (h : m.get? k = none) (v w : Entry) :
    (m.insertNew k v).set k w = m.insertNew k w := by
  unfold AMap.set AMap.insertNew
  rw [List.map_append]
  have h2 : List.map (fun p : String × Entry => if p.1 = k then (k, w) else p) m = m := by
    conv => rhs; rw [← List.map_id m]
    apply List.map_congr_left
    intro p hp
    rw [if_neg]
    · rfl
    intro e
    exact AMap.get?_eq_none_iff.1 h (e ▸ List.mem_map_of_mem hp)
  rw [h2]
  simp

theorem save_new {d d' : HDir} {v : Version} (hn : d.get? (v.name ++ ".yaml") = none) (h : d.save v = some d') :
    d' = d.insertNew (v.name ++ ".yaml") (.file (some v)) := by
  unfold HDir.save at h
  rw [hn] at h
  split at h
  · cases h
  · cases h; rfl

theorem save_old {d d' : HDir} {v w : Version} (hn : d.get? (v.name ++ ".yaml") = some (.file (some w)))
    (h : d.save v = some d') : d' = d.set (v.name ++ ".yaml") (.file (some v)) := by
  unfold HDir.save at h
  rw [hn] at h
  split at h
  · cases h
  · cases h; rfl

section
variable {d : HDir} {vs : List Version} {st : Version}

/-- Each made version is followed by one. -/
theorem IsHistory.next_of (h : IsHistory d vs st) {v : Version} (hv : v ∈ Version.newInit :: vs) :
    ∃ w ∈ vs ++ [st], w.previous = some v.name := by
  obtain ⟨A, C, e⟩ := List.append_of_mem hv
  have hl := h.linked
  have e' : Version.newInit :: (vs ++ [st]) = A ++ v :: (C ++ [st]) := by
    rw [← List.cons_append, e]; simp
  rw [e', Linked.append] at hl
  have hl := hl.2.2
  cases hC : C ++ [st] with
  | nil => simp at hC
  | cons w R =>
    rw [hC] at hl
    refine ⟨w, ?_, hl.1⟩
    cases A with
    | nil =>
      simp only [List.nil_append, List.cons.injEq] at e'
      rw [e'.2, hC]; simp
    | cons x A =>
      simp only [List.cons_append, List.cons.injEq] at e'
      rw [e'.2, hC]; simp

/-- What is stored under another name than `stage`. -/
theorem IsHistory.stored_made (h : IsHistory d vs st) {n : String} {v : Version} (hn : n ≠ "stage")
    (hv : Stored d n v) : v ∈ Version.newInit :: vs ∧ v.name = n := by
  obtain ⟨h1, h2⟩ := h.stored_iff.1 hv
  refine ⟨?_, h2⟩
  rw [← List.cons_append] at h1
  rcases List.mem_append.1 h1 with h1 | h1
  · exact h1
  · rw [List.mem_singleton] at h1
    exact absurd (h2.symm.trans (h1 ▸ h.stage)) hn

/-- No made version follows the one that the stage follows. -/
theorem IsHistory.no_other (h : IsHistory d vs st) {n : String} {v : Version} (hn : n ≠ "stage")
    (hv : Stored d n v) : v.previous ≠ st.previous := by
  intro e
  have hp := h.prev
  obtain ⟨h1, h2⟩ := h.stored_iff.1 hv
  have := h.linked.inj h.names' h1 (List.mem_cons_of_mem _ (by simp)) (e.trans hp) hp
  exact hn (by rw [← h2, this, h.stage])

/-- A history as podo writes it needs no repair. -/
theorem IsHistory.no_repair (h : IsHistory d vs st) {d' : HDir} : ¬ Repair d d' := by
  intro hr
  cases hr with
  | stage h1 _ _ =>
    have := h.stored_stage
    unfold Stored at this
    rw [show "stage" ++ ".yaml" = "stage.yaml" from rfl, h1] at this
    cases this
  | unreadable hn h1 =>
    obtain ⟨v, _, _, e⟩ := (h.files _ _).1 h1
    cases e
  | branch hn h1 h2 h3 =>
    rw [h2.unique h.stored_stage] at h3
    exact h.no_other hn h1 h3

theorem IsHistory.not_fails (h : IsHistory d vs st) : ¬ FailsToOpen d := by
  rintro ⟨k, e, hk⟩
  obtain ⟨nm, _, hf⟩ := h.fromDir
  have h1 := fromDir_mono (Nat.le_max_left k (vs.length + 2)) hk
  have h2 := hf (max k (vs.length + 2)) (by omega)
  rw [h1] at h2
  cases h2

/-- What `reset` leaves behind. -/
theorem IsHistory.reset_runs (h : IsHistory d vs st) {d' : HDir} :
    Runs .reset d d' true ↔ d' = d.set "stage.yaml" (.file (some st.reset)) := by
  obtain ⟨dv, hdv, _⟩ := h.saveStage (st' := st.reset) h.stage rfl
  have hrun : Runs .reset d dv true := runs_of_plan h.resetPlan (saveAll_single hdv)
  have hold : d.get? (st.reset.name ++ ".yaml") = some (.file (some st)) := by
    rw [show st.reset.name = "stage" from h.stage]; exact h.stored_stage
  have e : dv = d.set "stage.yaml" (.file (some st.reset)) := by
    rw [save_old hold hdv, show st.reset.name = "stage" from h.stage]; rfl
  constructor
  · intro h'; rw [← e]; exact (h'.unique hrun).1
  · rintro rfl; rw [← e]; exact hrun

theorem IsHistory.reset_eq (h : IsHistory d vs st) {p : String} (hp : st.previous = some p) :
    st.reset = Version.newStage p := by
  have := h.stage
  cases st
  simp only at this hp
  subst this hp
  rfl

/-- The directories a command may leave behind when its process dies. -/
inductive Wreck (c : HistCmd) (d : HDir) (vs : List Version) (st : Version) (d' : HDir) : Prop where
  | same : d' = d → Wreck c d vs st d'
  | done {vs' : List Version} {st' : Version} : Runs c d d' true → IsHistory d' vs' st' → st'.reset = st' ∨ vs' = vs →
      (∀ d'', Runs .reset d' d'' true → Runs .reset d d'' true ∨ d'' = d') → Wreck c d vs st d'
  | stageNone : d' = d.set "stage.yaml" (.file none) → Wreck c d vs st d'
  | stageCut {st' : Version} : st'.name = "stage" → st'.previous = st.previous →
      d' = d.set "stage.yaml" (.file (some st')) → IsHistory d' vs st' → Wreck c d vs st d'
  | madeNone {n : String} : FreshName d n → d' = d.insertNew (n ++ ".yaml") (.file none) → Wreck c d vs st d'
  | made {n : String} (l : List String) : FreshName d n →
      d' = d.insertNew (n ++ ".yaml") (.file (some { st with name := n, down := l })) → Wreck c d vs st d'
  | both {n : String} : FreshName d n → d' = (d.insertNew (n ++ ".yaml")
        (.file (some { st with name := n }))).set "stage.yaml" (.file none) →
      Runs c d ((d.insertNew (n ++ ".yaml") (.file (some { st with name := n }))).set "stage.yaml"
        (.file (some (Version.newStage n)))) true → Wreck c d vs st d'

theorem IsHistory.stage_get (h : IsHistory d vs st) : d.get? "stage.yaml" = some (.file (some st)) := h.stored_stage

/-- A command that writes the stage. -/
theorem wreck_stage (h : IsHistory d vs st) {c : HistCmd} {k : Nat} {st' : Version} (hn : st'.name = "stage")
    (hprev : st'.previous = st.previous) (hp : c.plan k d = some (.ok [st'])) {d' : HDir}
    (hc : CrashState d [st'] d') : Wreck c d vs st d' := by
  have hold : d.get? (st'.name ++ ".yaml") = some (.file (some st)) := by rw [hn]; exact h.stored_stage
  have hkey : st'.name ++ ".yaml" = "stage.yaml" := by rw [hn]; rfl
  obtain ⟨d₀, hd₀, hh⟩ := h.saveStage hn hprev
  have e₀ : d₀ = d.set "stage.yaml" (.file (some st')) := by rw [save_old hold hd₀, hkey]
  cases hc with
  | before => exact .same rfl
  | truncated hdv =>
    rw [save_old hold hdv, hkey]
    exact .stageNone (AMap.set_set _ _ _ _)
  | cut l hdv _ =>
    rw [save_old hold hdv, hkey]
    obtain ⟨d₁, hd₁, hh₁⟩ := h.saveStage (st' := { st' with down := l }) hn hprev
    have hold₁ : d.get? (({ st' with down := l } : Version).name ++ ".yaml") = some (.file (some st)) := hold
    have e₁ := save_old hold₁ hd₁
    rw [show ({ st' with down := l } : Version).name ++ ".yaml" = "stage.yaml" from hkey] at e₁
    refine .stageCut (st' := { st' with down := l }) hn hprev (AMap.set_set _ _ _ _) ?_
    rw [AMap.set_set, ← e₁]
    exact hh₁
  | saved hdv hc =>
    cases hc
    have hd : d' = d₀ := by rw [hd₀] at hdv; cases hdv; rfl
    subst hd
    refine .done (vs' := vs) (st' := st') ⟨k, by unfold HistCmd.exec; rw [hp]; simp only [saveAll_single hd₀]⟩ hh
      (.inr rfl) ?_
    intro d'' hr
    left
    rw [hh.reset_runs, e₀, AMap.set_set] at hr
    rw [h.reset_runs, hr]
    congr 3
    have h1 := h.stage
    cases st
    cases st'
    simp only at hn hprev h1
    subst hn hprev h1
    rfl

/-- What is left behind. -/
theorem Dies.wreck (h : IsHistory d vs st) {s : Database}
    (hrec : Recorded Database.new (Version.newInit :: (vs ++ [st])) s) {c : HistCmd}
    (hf : ∀ stamp label, c = .make stamp label → FreshName d (madeName stamp label)) {d' : HDir} (hd : Dies c d d') :
    Wreck c d vs st d' := by
  obtain ⟨k, ws, hp, hc⟩ := hd
  rcases plan_cases h hp hrec with rfl | ⟨_, st', rfl, rfl, hst⟩ | ⟨stamp, label, rfl, hne, rfl⟩ | ⟨rfl, rfl⟩
  · cases hc; exact .same rfl
  · obtain ⟨rs, s', _, e⟩ := stageVersion_ok hst
    exact wreck_stage h (st' := st') (by rw [e]; exact h.stage) (by rw [e]) hp hc
  · have hf := hf stamp label rfl
    generalize hnm : madeName stamp label = n at *
    have hns : n ≠ "stage" := by
      rintro rfl
      have := h.stored_stage
      unfold Stored at this
      rw [hf.1] at this; cases this
    have hfresh : d.get? (({ st with name := n } : Version).name ++ ".yaml") = none := hf.1
    cases hc with
    | before => exact .same rfl
    | truncated hdv =>
      rw [save_new hfresh hdv]
      exact .madeNone hf (set_insertNew hf.1 _ _)
    | cut l hdv _ =>
      rw [save_new hfresh hdv]
      exact .made l hf (set_insertNew hf.1 _ _)
    | @saved _ _ _ d₁ _ hd₁ hc =>
      have e₁ := save_new hfresh hd₁
      have hstage : d₁.get? "stage.yaml" = some (.file (some st)) := by
        rw [save_get hd₁, if_neg (show "stage.yaml" ≠ n ++ ".yaml" from
          fun he => hns (append_yaml_inj (a := "stage") he).symm)]
        exact h.stored_stage
      have hsl : '/' ∉ n.toList := by
        intro hsl
        unfold HDir.save at hd₁
        rw [if_pos (by simpa using hsl)] at hd₁
        cases hd₁
      obtain ⟨d₂', hd₂', hh₂⟩ := h.make hf hsl
      have hrun : Runs (.make stamp label) d d₂' true := ⟨k, by unfold HistCmd.exec; rw [hp]; simp only [hd₂']⟩
      have hlast : ∀ d₂, d₁.save (Version.newStage n) = some d₂ →
          d₂ = d₂' ∧ d₂ = d₁.set "stage.yaml" (.file (some (Version.newStage n))) := by
        intro d₂ hd₂
        refine ⟨?_, save_old hstage hd₂⟩
        simp only [HDir.saveAll, hd₁, hd₂, Prod.mk.injEq, and_true] at hd₂'
        exact hd₂'
      cases hc with
      | before => rw [e₁]; exact .made st.down hf rfl
      | truncated hd₂ =>
        obtain ⟨h1, h2⟩ := hlast _ hd₂
        refine .both hf ?_ ?_
        · rw [h2]
          change (d₁.set "stage.yaml" _).set "stage.yaml" _ = _
          rw [AMap.set_set, e₁]
        · rw [← h1, h2, e₁] at hrun
          exact hrun
      | cut l hd₂ hdn => exact absurd rfl hdn
      | saved hd₂ hc =>
        cases hc
        obtain ⟨h1, _⟩ := hlast _ hd₂
        subst h1
        refine .done hrun hh₂ (.inl rfl) ?_
        intro d'' hr
        right
        rw [hh₂.reset_runs] at hr
        rw [hr]
        exact AMap.set_self hh₂.nodup hh₂.stored_stage
  · exact wreck_stage h (st' := st.reset) h.stage rfl hp hc

theorem yaml_key {a b : String} : a ++ ".yaml" = b ++ ".yaml" ↔ a = b := ⟨append_yaml_inj, fun h => h ▸ rfl⟩

theorem stage_key {a : String} : a ++ ".yaml" = "stage.yaml" ↔ a = "stage" := yaml_key (b := "stage")

/-- Looking into a directory with another stage file. -/
theorem IsHistory.get_stage (h : IsHistory d vs st) (e : Entry) (n : String) :
    (d.set "stage.yaml" e).get? (n ++ ".yaml") = if n = "stage" then some e else d.get? (n ++ ".yaml") := by
  rw [AMap.get?_set _ _ _ _ (by rw [h.stage_get]; rfl)]
  simp only [stage_key]

theorem get_new {n : String} (hf : FreshName d n) (e : Entry) (m : String) :
    (d.insertNew (n ++ ".yaml") e).get? (m ++ ".yaml") = if m = n then some e else d.get? (m ++ ".yaml") := by
  rw [AMap.get?_insertNew _ _ _ _ hf.1]
  simp only [yaml_key]

theorem IsHistory.fresh_ne_stage (h : IsHistory d vs st) {n : String} (hf : FreshName d n) : n ≠ "stage" := by
  rintro rfl
  have := h.stored_stage
  unfold Stored at this
  rw [hf.1] at this
  cases this

theorem IsHistory.fresh_get_stage (h : IsHistory d vs st) {n : String} (hf : FreshName d n) (e : Entry) :
    (d.insertNew (n ++ ".yaml") e).get? "stage.yaml" = some (.file (some st)) := by
  have := get_new hf e "stage"
  rw [if_neg (Ne.symm (h.fresh_ne_stage hf))] at this
  exact this.trans h.stored_stage

/-- What a repair comes to. -/
theorem Wreck.repaired (h : IsHistory d vs st) {c : HistCmd} {d' d'' : HDir} (hw : Wreck c d vs st d')
    (hr : Repair d' d'') : d'' = d ∨ Runs c d d'' true ∨ Runs .reset d d'' true := by
  have readable : ∀ {n : String}, d.get? (n ++ ".yaml") ≠ some (.file none) := by
    intro n h1
    obtain ⟨v, _, _, e⟩ := (h.files _ _).1 h1
    cases e
  cases hw with
  | same e => subst e; exact absurd hr h.no_repair
  | done _ hh _ _ => exact absurd hr hh.no_repair
  | stageCut _ _ _ hh => exact absurd hr hh.no_repair
  | stageNone e =>
    subst e
    cases hr with
    | @stage last v h1 h2 h3 =>
      have hl : last ≠ "stage" := by
        rintro rfl
        unfold Stored at h2
        rw [h.get_stage, if_pos rfl] at h2
        cases h2
      have h2' : Stored d last v := by
        unfold Stored at h2 ⊢
        rwa [h.get_stage, if_neg hl] at h2
      obtain ⟨hv, hvn⟩ := h.stored_made hl h2'
      obtain ⟨w, hw, hwp⟩ := h.next_of hv
      rw [hvn] at hwp
      rcases List.mem_append.1 hw with hw | hw
      · exfalso
        refine h3 w.name w ?_ hwp
        unfold Stored
        rw [h.get_stage, if_neg (h.made_ne_stage hw)]
        exact h.stored (by simp [hw])
      · rw [List.mem_singleton] at hw
        subst hw
        right; right
        rw [h.reset_runs, AMap.set_set, h.reset_eq hwp]
    | unreadable hn h1 =>
      rw [h.get_stage, if_neg hn] at h1
      exact absurd h1 readable
    | branch hn h1 h2 h3 =>
      unfold Stored at h2
      rw [h.get_stage, if_pos rfl] at h2
      cases h2
  | @madeNone n hf e =>
    subst e
    cases hr with
    | stage h1 _ _ => rw [h.fresh_get_stage hf] at h1; cases h1
    | @unreadable m hn h1 =>
      rw [get_new hf] at h1
      by_cases hm : m = n
      · subst hm; exact .inl (erase_insertNew hf.1 _)
      · rw [if_neg hm] at h1
        exact absurd h1 readable
    | @branch m v st' hn h1 h2 h3 =>
      unfold Stored at h1 h2
      rw [get_new hf] at h1
      rw [show "stage" ++ ".yaml" = "stage.yaml" from rfl, h.fresh_get_stage hf] at h2
      cases h2
      by_cases hm : m = n
      · rw [if_pos hm] at h1; cases h1
      · rw [if_neg hm] at h1
        exact absurd h3 (h.no_other hn h1)
  | @made n l hf e =>
    subst e
    cases hr with
    | stage h1 _ _ => rw [h.fresh_get_stage hf] at h1; cases h1
    | @unreadable m hn h1 =>
      rw [get_new hf] at h1
      by_cases hm : m = n
      · rw [if_pos hm] at h1; cases h1
      · rw [if_neg hm] at h1
        exact absurd h1 readable
    | @branch m v st' hn h1 h2 h3 =>
      unfold Stored at h1 h2
      rw [get_new hf] at h1
      rw [show "stage" ++ ".yaml" = "stage.yaml" from rfl, h.fresh_get_stage hf] at h2
      cases h2
      by_cases hm : m = n
      · subst hm; exact .inl (erase_insertNew hf.1 _)
      · rw [if_neg hm] at h1
        exact absurd h3 (h.no_other hn h1)
  | @both n hf e hrun =>
    subst e
    have hget : ∀ m : String, ((d.insertNew (n ++ ".yaml") (.file (some { st with name := n }))).set "stage.yaml"
        (.file none)).get? (m ++ ".yaml") = if m = "stage" then some (.file none) else
          if m = n then some (.file (some { st with name := n })) else d.get? (m ++ ".yaml") := by
      intro m
      rw [AMap.get?_set _ _ _ _ (by rw [h.fresh_get_stage hf]; rfl)]
      simp only [stage_key]
      rw [get_new hf]
    cases hr with
    | @stage last v h1 h2 h3 =>
      right; left
      have hl : last = n := by
        refine Classical.byContradiction fun hl => ?_
        have hls : last ≠ "stage" := by
          rintro rfl
          unfold Stored at h2
          rw [hget, if_pos rfl] at h2
          cases h2
        have h2' : Stored d last v := by
          unfold Stored at h2 ⊢
          rwa [hget, if_neg hls, if_neg hl] at h2
        obtain ⟨hv, hvn⟩ := h.stored_made hls h2'
        obtain ⟨w, hw, hwp⟩ := h.next_of hv
        rw [hvn] at hwp
        rcases List.mem_append.1 hw with hw | hw
        · refine h3 w.name w ?_ hwp
          have hwn : w.name ≠ n := by
            intro e
            have := h.stored (v := w) (by simp [hw])
            unfold Stored at this
            rw [e, hf.1] at this
            cases this
          unfold Stored
          rw [hget, if_neg (h.made_ne_stage hw), if_neg hwn]
          exact h.stored (by simp [hw])
        · rw [List.mem_singleton] at hw
          subst hw
          refine h3 n { w with name := n } ?_ hwp
          unfold Stored
          rw [hget, if_neg (h.fresh_ne_stage hf), if_pos rfl]
      subst hl
      rw [AMap.set_set]
      exact hrun
    | @unreadable m hn h1 =>
      rw [hget, if_neg hn] at h1
      by_cases hm : m = n
      · rw [if_pos hm] at h1; cases h1
      · rw [if_neg hm] at h1
        exact absurd h1 readable
    | branch hn h1 h2 h3 =>
      unfold Stored at h2
      rw [hget, if_pos rfl] at h2
      cases h2

/-- There is a repair. -/
theorem Wreck.repairable (h : IsHistory d vs st) {c : HistCmd} {d' : HDir} (hw : Wreck c d vs st d')
    (hfail : FailsToOpen d') : ∃ d'', Repair d' d'' := by
  cases hw with
  | same e => subst e; exact absurd hfail h.not_fails
  | done _ hh _ _ => exact absurd hfail hh.not_fails
  | stageCut _ _ _ hh => exact absurd hfail hh.not_fails
  | stageNone e =>
    subst e
    have hp := h.prev
    obtain ⟨A, u, C, hl, hu⟩ := h.linked.split (v := st) (by simp) hp
    generalize hlast : ((vs.map Version.name).getLast?).getD "init" = last at *
    have hum : u ∈ Version.newInit :: (vs ++ [st]) := by rw [hl]; simp
    have hus : u.name ≠ "stage" := by
      have hn := h.names'
      rw [hl, List.map_append, List.map_cons, List.map_cons, List.nodup_append, List.nodup_cons] at hn
      intro e
      exact hn.2.1.1 (by rw [e, h.stage]; simp)
    refine ⟨_, .stage (last := last) (v := u) (by rw [AMap.get?_set _ _ _ _ (by rw [h.stage_get]; rfl), if_pos rfl]) ?_ ?_⟩
    · unfold Stored
      rw [h.get_stage, ← hu, if_neg hus]
      exact h.stored hum
    · intro n w hw
      unfold Stored at hw
      rw [h.get_stage] at hw
      by_cases hn : n = "stage"
      · rw [if_pos hn] at hw; cases hw
      · rw [if_neg hn] at hw
        rw [← hp]
        exact h.no_other hn hw
  | @madeNone n hf e =>
    subst e
    exact ⟨_, .unreadable (n := n) (h.fresh_ne_stage hf) (by rw [get_new hf, if_pos rfl])⟩
  | @made n l hf e =>
    subst e
    refine ⟨_, .branch (n := n) (v := { st with name := n, down := l }) (st := st) (h.fresh_ne_stage hf) ?_ ?_ rfl⟩
    · unfold Stored; rw [get_new hf, if_pos rfl]
    · exact h.fresh_get_stage hf _
  | @both n hf e _ =>
    subst e
    have hget : ∀ m : String, ((d.insertNew (n ++ ".yaml") (.file (some { st with name := n }))).set "stage.yaml"
        (.file none)).get? (m ++ ".yaml") = if m = "stage" then some (.file none) else
          if m = n then some (.file (some { st with name := n })) else d.get? (m ++ ".yaml") := by
      intro m
      rw [AMap.get?_set _ _ _ _ (by rw [h.fresh_get_stage hf]; rfl)]
      simp only [stage_key]
      rw [get_new hf]
    refine ⟨_, .stage (last := n) (v := { st with name := n }) ?_ ?_ ?_⟩
    · have := hget "stage"
      rw [if_pos rfl] at this
      exact this
    · unfold Stored
      rw [hget, if_neg (h.fresh_ne_stage hf), if_pos rfl]
    · intro m w hw hwp
      unfold Stored at hw
      rw [hget] at hw
      have old : ∀ w ∈ Version.newInit :: (vs ++ [st]), w.previous ≠ some n := by
        intro w hw hwp
        obtain ⟨A, u, C, hl, hu⟩ := h.linked.split hw hwp
        have := h.stored (v := u) (by rw [hl]; simp)
        unfold Stored at this
        rw [hu, hf.1] at this
        cases this
      by_cases hm : m = "stage"
      · rw [if_pos hm] at hw; cases hw
      · rw [if_neg hm] at hw
        by_cases hm' : m = n
        · rw [if_pos hm'] at hw
          cases hw
          exact old st (by simp) hwp
        · rw [if_neg hm'] at hw
          exact old w (h.stored_iff.1 hw).1 hwp

/-- What `reset` comes to. -/
theorem Wreck.reset (h : IsHistory d vs st) {c : HistCmd} {d' d'' : HDir} (hw : Wreck c d vs st d')
    (hr : Runs .reset d' d'' true) : Runs .reset d d'' true ∨ (Runs c d d'' true) := by
  have opened : ∀ {d' : HDir}, FailsToOpen d' → Runs .reset d' d'' true → False := by
    rintro d' ⟨k, e, hk⟩ ⟨k', hk'⟩
    unfold HistCmd.exec at hk'
    simp only [HistCmd.plan, Podo.resetPlan] at hk'
    split at hk'
    · cases hk'
    · cases hk'
    · next ws hws =>
      split at hws
      · cases hws
      · cases hws
      · next o ho =>
        have h1 := fromDir_mono (Nat.le_max_left k k') hk
        have h2 := fromDir_mono (Nat.le_max_right k k') ho
        rw [h1] at h2; cases h2
  cases hw with
  | same e => subst e; exact .inl hr
  | done hrun hh _ hreset =>
    rcases hreset _ hr with h1 | rfl
    · exact .inl h1
    · exact .inr hrun
  | @stageCut st' hn hprev e hh =>
    left
    rw [hh.reset_runs, e, AMap.set_set] at hr
    rw [h.reset_runs, hr]
    congr 3
    have h1 := h.stage
    cases st
    cases st'
    simp only at hn hprev h1
    subst hn hprev h1
    rfl
  | stageNone e =>
    subst e
    refine absurd hr fun hr => opened (fails_of_unreadable (n := "stage") (noYaml (by decide)) ?_) hr
    rw [h.get_stage, if_pos rfl]
  | @madeNone n hf e =>
    subst e
    refine absurd hr fun hr => opened (fails_of_unreadable (n := n) hf.2 ?_) hr
    rw [get_new hf, if_pos rfl]
  | @made n l hf e =>
    subst e
    refine absurd hr fun hr => opened (fails_of_branch (a := n) (b := "stage") (v := { st with name := n, down := l })
      (w := st) hf.2 (noYaml (by decide)) (h.fresh_ne_stage hf) ?_ ?_ h.prev h.prev) hr
    · unfold Stored; rw [get_new hf, if_pos rfl]
    · exact h.fresh_get_stage hf _
  | @both n hf e _ =>
    subst e
    refine absurd hr fun hr => opened (fails_of_unreadable (n := "stage") (noYaml (by decide)) ?_) hr
    rw [show "stage" ++ ".yaml" = "stage.yaml" from rfl, AMap.get?_set _ _ _ _ (by rw [h.fresh_get_stage hf]; rfl),
      if_pos rfl]

end
end Podo
