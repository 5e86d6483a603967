import Verif.Proofs.Follow
import Verif.Props.Pg
import Verif.Props.Program
/-
C66 and C67: the schema of the database follows the versions.
-/
set_option linter.unusedSimpArgs false
namespace Podo
open Pg
variable {σ : Type}

/-- Along a path of versions. -/
theorem path_follow {B : Behaviour σ} {cat : σ → Content} {free : Change → Content → Prop}
    (ho : Obedient B cat free) {d : HDir} (hr : Reachable d) {a n : String} {l : List String}
    (hpath : VersionPath d a n l) {ws : List Version} (hl : l = ws.map Version.name)
    (hst : ∀ w ∈ ws, Stored d w.name w)
    (hp : ∀ w ∈ ws, ∀ p s₀, w.previous = some p → SnapshotOf d p s₀ → Plain free s₀ w.changes)
    {s : Database} (hs : SnapshotOf d a s) {x x' : σ} (hc : cat x = s.content)
    (hx : Script B x (ws.flatMap Version.up) x') :
    ∃ s' v, SnapshotOf d n s' ∧ Stored d n v ∧ cat x' = s'.content := by
  induction hpath generalizing ws x' with
  | @here v hv =>
    have hnil : ws = [] := List.map_eq_nil_iff.1 hl.symm
    subst hnil
    cases hx
    exact ⟨s, v, hs, hv, hc⟩
  | @later p b l v hpa hv hprev ih =>
    rcases List.eq_nil_or_concat ws with rfl | ⟨ws', w, rfl⟩
    · simp at hl
    · rw [List.concat_eq_append] at *
      rw [List.map_append, List.map_cons, List.map_nil] at hl
      obtain ⟨e1, e2⟩ := List.append_inj' hl rfl
      cases e2
      rw [List.flatMap_append, List.flatMap_cons, List.flatMap_nil, List.append_nil] at hx
      obtain ⟨y, hx1, hx2⟩ := script_append.1 hx
      obtain ⟨s₁, u, h1, h2, h3⟩ := ih e1 (fun w h => hst w (by simp [h]))
        (fun w h => hp w (by simp [h])) hx1
      have hwv : w = v := (hst w (by simp)).unique hv
      subst hwv
      obtain ⟨hup, s₀, rs, s', hp0, ht, hs', _, _⟩ := C28_scripts_aligned hr hv
      rcases hp0 with ⟨h0, _⟩ | ⟨p', h0, hs0⟩
      · rw [hprev] at h0; cases h0
      · rw [hprev] at h0
        cases h0
        cases hs0.unique h1
        refine ⟨s', w, hs', hv, ?_⟩
        rw [hup] at hx2
        exact script_follow ho (snapshotOf_wf hr h2 h1) ht.applyAll
          (hp w (by simp) p _ hprev h1) h3 hx2

/-- C66 (partial).  If the schema of the database is that of its version, then after a successful `up`
it is that of the version the database is then on — for every server that does what statements say, where
the SQL text of the changes of the versions that `up` applies is right (C56) and free of surprises.  Missing
for the full property: versions with other changes; see `C66_not_null_false` and
`C66_add_column_false`. -/
theorem C66_up_follows_partial {B : Behaviour σ} {cat : σ → Content} {free : Change → Content → Prop}
    (ho : Obedient B cat free) {d : HDir} (hr : Reachable d) {db db' : DB σ} (hdb : Reach B db)
    {fuel : Nat} {target : Option String} (h : up B fuel d target db = some (db', .ok))
    {cur : Version} (hcur : db.applied.getLast? = some cur) {s : Database}
    (hs : SnapshotOf d cur.name s) (hc : cat db.data = s.content)
    (hp : ∀ v ∈ db'.applied, v ∉ db.applied → ∀ p s₀, v.previous = some p → SnapshotOf d p s₀ →
      Plain free s₀ v.changes) :
    ∃ v s', db'.applied.getLast? = some v ∧ SnapshotOf d v.name s' ∧ cat db'.data = s'.content := by
  obtain ⟨n, cur', ws, _, h2, h3, h4, h5, h6, h7, h8⟩ := C31_up_applies_missing_partial hdb
    hr.namedAfterVersion h
  rw [hcur] at h2
  cases h2
  have hnd : (db'.applied.map Version.name).Nodup := by
    have hdb' : Reach B db' := .up hdb hr.namedAfterVersion h
    rcases C35_version_table_chain_partial hdb' with ha | ⟨t, ht, hch⟩
    · unfold DB.applied; rw [ha]; simp
    · have := hch.names
      unfold DB.applied
      rw [ht]
      rw [List.map_map]
      exact this
  obtain ⟨s', v, h9, _, h10⟩ := path_follow ho hr h3 rfl h5 (by
    intro w hw p s₀ hprev hs₀
    refine hp w (by rw [h7]; simp [hw]) ?_ p s₀ hprev hs₀
    intro hu
    rw [h7, List.map_append, List.nodup_append] at hnd
    exact hnd.2.2 _ (List.mem_map_of_mem hu) _ (List.mem_map_of_mem hw) rfl) hs hc h6
  cases hl : db'.applied.getLast? with
  | none => rw [hl] at h8; cases h8
  | some v =>
    rw [hl] at h8
    simp only [Option.map_some, Option.some.injEq] at h8
    exact ⟨v, s', rfl, by rw [h8]; exact h9, h10⟩

/-- A version with one change, applied alone. -/
theorem up_one {B : Behaviour σ} {d : HDir} (hr : Reachable d) {db db' : DB σ} (hdb : Reach B db)
    {fuel : Nat} {target : Option String} (h : up B fuel d target db = some (db', .ok))
    {cur v : Version} (hcur : db.applied.getLast? = some cur) {s : Database}
    (hs : SnapshotOf d cur.name s) (ha : db'.applied = db.applied ++ [v]) {c : Change}
    (hv : v.changes = [c]) :
    B.exec db.data c.renderSql = some db'.data ∧
      ∃ s', SnapshotOf d v.name s' ∧ Spec.effect c s.content = some s'.content := by
  obtain ⟨n, cur', ws, _, h2, h3, h4, h5, h6, h7, h8⟩ := C31_up_applies_missing_partial hdb
    hr.namedAfterVersion h
  rw [hcur] at h2
  cases h2
  rw [ha] at h7
  cases List.append_cancel_left h7
  obtain ⟨hup, s₀, rs, s', hp0, ht, hs', _, _⟩ := C28_scripts_aligned hr (h5 v (by simp))
  have hprev : v.previous = some cur.name ∧ ∃ u, Stored d cur.name u := by
    generalize hl : [v].map Version.name = l at h3
    cases h3 with
    | here _ => cases hl
    | @later p b l u hpa hu hp =>
      cases l with
      | cons x l => simp at hl
      | nil =>
        cases hl
        cases (h5 v (by simp)).unique hu
        generalize hl' : ([] : List String) = l' at hpa
        cases hpa with
        | here hw => exact ⟨hp, _, hw⟩
        | later => simp at hl'
  obtain ⟨hprev, u, hu⟩ := hprev
  rcases hp0 with ⟨h0, _⟩ | ⟨p', h0, hs0⟩
  · rw [hprev] at h0; cases h0
  · rw [hprev] at h0
    cases h0
    cases hs0.unique hs
    have hwf := snapshotOf_wf hr hu hs
    rw [hv] at ht hup
    refine ⟨?_, s', hs', ?_⟩
    · simp only [List.flatMap_cons, List.flatMap_nil, List.append_nil, hup, List.map_cons,
        List.map_nil] at h6
      cases h6 with
      | cons hq hx => cases hx; exact hq
    · cases ht with
      | cons _ ha ht' => cases ht'; exact apply_effect hwf ha

/-- The full C66 is false whenever a column is added: the database gets it with the opposite
nullability, so that its schema is not that of the version. -/
theorem C66_add_column_false {B : Behaviour σ} {cat : σ → Content} {free : Change → Content → Prop}
    (ho : Obedient B cat free) {d : HDir} (hr : Reachable d) {db db' : DB σ} (hdb : Reach B db)
    {fuel : Nat} {target : Option String} (h : up B fuel d target db = some (db', .ok))
    {cur v : Version} (hcur : db.applied.getLast? = some cur) {s : Database}
    (hs : SnapshotOf d cur.name s) (hc : cat db.data = s.content)
    (ha : db'.applied = db.applied ++ [v]) {sn tn n ty : String} {nn : Bool} {df : Option String}
    (hv : v.changes = [.addColumn sn tn n ty nn df]) (hsn : '"' ∉ sn.toList) (htn : '"' ∉ tn.toList)
    (hn : '"' ∉ n.toList) (hf : free (.addColumn sn tn n ty (!nn) df) s.content) :
    ∃ s', SnapshotOf d v.name s' ∧ cat db'.data ≠ s'.content := by
  obtain ⟨hx, s', hs', he⟩ := up_one hr hdb h hcur hs ha hv
  obtain ⟨C, h1, h2⟩ := effect_addColumn he (!nn)
  refine ⟨s', hs', fun heq => ?_⟩
  have := ho _ _ _ _ _ (C17_add_column_false sn tn n ty nn df hsn htn hn).1 (by rw [hc]; exact hf)
    (by rw [hc]; exact h1) hx
  have := h2 (by rw [← heq, this])
  cases nn <;> cases this

/-- What is written for a new table says that all columns are nullable. -/
theorem says_nullable (sn tn : String) (cols : List NewColumn) (hsn : '"' ∉ sn.toList) (htn : '"' ∉ tn.toList)
    (hn : ∀ c ∈ cols, '"' ∉ c.name.toList) : Says (Change.createTable sn tn cols).renderSql
      (.createTable sn tn (cols.map fun c => { c with notNull := false })) := by
  obtain ⟨defs, h3, h4, h5⟩ := C17_create_table_false sn tn cols hsn htn hn
  refine ⟨_, ⟨defs, rfl, ?_⟩, .inr h3⟩
  have hd : defs.map (fun c => (⟨c.name, c.dataType, c.notNull, c.default⟩ : NewColumn)) =
      (defs.map fun c => (c.name, c.dataType, c.default)).map fun x => ⟨x.1, x.2.1, false, x.2.2⟩ := by
    rw [List.map_map]
    exact List.map_congr_left fun c hc => by rw [h5 c hc]; rfl
  rw [hd, h4, List.map_map]
  rfl

/-- And whenever a table with a column that is not null is created: in the database, it is nullable. -/
theorem C66_not_null_false {B : Behaviour σ} {cat : σ → Content} {free : Change → Content → Prop}
    (ho : Obedient B cat free) {d : HDir} (hr : Reachable d) {db db' : DB σ} (hdb : Reach B db)
    {fuel : Nat} {target : Option String} (h : up B fuel d target db = some (db', .ok))
    {cur v : Version} (hcur : db.applied.getLast? = some cur) {s : Database}
    (hs : SnapshotOf d cur.name s) (hc : cat db.data = s.content)
    (ha : db'.applied = db.applied ++ [v]) {sn tn : String} {cols : List NewColumn}
    (hv : v.changes = [.createTable sn tn cols]) (hnn : ∃ c ∈ cols, c.notNull = true)
    (hsn : '"' ∉ sn.toList) (htn : '"' ∉ tn.toList) (hn : ∀ c ∈ cols, '"' ∉ c.name.toList)
    (hf : free (.createTable sn tn (cols.map fun c => { c with notNull := false })) s.content) :
    ∃ s', SnapshotOf d v.name s' ∧ cat db'.data ≠ s'.content := by
  obtain ⟨hx, s', hs', he⟩ := up_one hr hdb h hcur hs ha hv
  obtain ⟨C, h1, h2⟩ := effect_createTable he
  refine ⟨s', hs', fun heq => ?_⟩
  have := ho _ _ _ _ _ (says_nullable sn tn cols hsn htn hn) (by rw [hc]; exact hf) (by rw [hc]; exact h1) hx
  obtain ⟨c, hm, hb⟩ := hnn
  rw [h2 (by rw [← heq, this]) c hm] at hb
  cases hb

/-- What a successful `down` does, with or without a version. -/
theorem down_does {B : Behaviour σ} {db db' : DB σ} (hr : Reach B db) {target : Option String}
    (h : down B target db = (db', .ok)) :
    ∃ pre v post, db.applied = pre ++ v :: post ∧
      Script B db.data (post.reverse.flatMap Version.down) db'.data ∧ db'.applied = pre ++ [v] := by
  cases target with
  | some n =>
    obtain ⟨pre, v, post, h1, _, h2, h3⟩ := C33_down_reverts_later hr h
    exact ⟨pre, v, post, h1, h2, h3⟩
  | none =>
    have hne : ∃ v rest, db.applied = v :: rest := by
      rcases C35_version_table_chain_partial hr with ha | ⟨t, ht, hch⟩
      · unfold DB.applied; rw [ha]; exact ⟨_, _, rfl⟩
      · obtain ⟨rest, h1⟩ := hch.starts
        unfold DB.applied; rw [ht]; exact ⟨_, _, h1⟩
    obtain ⟨v, rest, hv⟩ := hne
    rcases List.eq_nil_or_concat rest with rfl | ⟨rest', w, rfl⟩
    · have := (C36_down_at_init hr hv).1
      rw [h] at this
      exact ⟨[], v, [], hv, by rw [this.data]; exact .nil, by rw [this.applied, hv]; rfl⟩
    · rw [List.concat_eq_append] at hv
      have hv' : db.applied = (v :: rest') ++ [w] := by rw [hv]; rfl
      obtain ⟨h1, h2⟩ := C36_down_one_partial hr hv' (by simp) h
      rcases List.eq_nil_or_concat (v :: rest') with h0 | ⟨pre, u, h0⟩
      · cases h0
      · rw [List.concat_eq_append] at h0
        refine ⟨pre, u, [w], by rw [hv', h0]; simp, by simpa using h1, by rw [h2, h0]⟩

/-- Back down a chain of versions. -/
theorem down_follow {B : Behaviour σ} {cat : σ → Content} {free : Change → Content → Prop}
    (ho : Obedient B cat free) {d : HDir} (hr : Reachable d) {pre : List Version} {v : Version} :
    ∀ (r : List Version) (x x' : σ), Linked none (pre ++ v :: r.reverse) →
    (∀ w ∈ pre ++ v :: r.reverse, Stored d w.name w) →
    (∀ w ∈ r, ∀ p s₀ rs s₁, w.previous = some p → SnapshotOf d p s₀ → TakenFrom w.changes s₀ rs s₁ →
      (∀ a c b s₂, w.changes = a ++ c :: b → Change.applyAll a s₀ = .ok s₂ → ¬ Lossy s₂.content c) ∧
      Plain free s₁ rs.reverse) →
    (∀ u s, (v :: r.reverse).getLast? = some u → SnapshotOf d u.name s → cat x = s.content) →
    Script B x (r.flatMap Version.down) x' →
    ∃ s', SnapshotOf d v.name s' ∧ cat x' = s'.content
  | [], x, x', _, hst, _, hc, hx => by
    cases hx
    obtain ⟨s, hs⟩ := (C27_history_replays hr).2 _ _ (hst v (by simp))
    exact ⟨s, hs, hc v s rfl hs⟩
  | w :: r, x, x', hlink, hst, hp, hc, hx => by
    rw [List.reverse_cons] at hlink hst hc
    rw [List.flatMap_cons] at hx
    obtain ⟨y, hx1, hx2⟩ := script_append.1 hx
    have hw : Stored d w.name w := hst w (by simp)
    obtain ⟨_, s₀, rs, s₁, hp0, ht, hs₁, hdown, _⟩ := C28_scripts_aligned hr hw
    have e : pre ++ v :: (r.reverse ++ [w]) = (pre ++ v :: r.reverse) ++ [w] := by simp
    rw [e] at hlink
    have hprev := hlink.prev_last
    have hlast : (pre ++ v :: r.reverse).getLast? = (v :: r.reverse).getLast? := by
      rw [List.getLast?_append]
      cases hq : (v :: r.reverse).getLast? with
      | none => simp at hq
      | some q => rfl
    rw [hlast] at hprev
    obtain ⟨u, hu⟩ : ∃ u, (v :: r.reverse).getLast? = some u := by
      cases hq : (v :: r.reverse).getLast? with
      | none => simp at hq
      | some q => exact ⟨q, rfl⟩
    rw [hu] at hprev
    simp only [Option.map_some, Option.some_or] at hprev
    rcases hp0 with ⟨h0, _⟩ | ⟨p', h0, hs0⟩
    · rw [hprev] at h0; cases h0
    · rw [hprev] at h0
      cases h0
      obtain ⟨hl, hpl⟩ := hp w (by simp) _ _ _ _ hprev hs0 ht
      have hus : Stored d u.name u := by
        refine hst u ?_
        rw [e]
        exact List.mem_append_left _ (List.mem_append_right _ (List.mem_of_getLast? hu))
      have hwf := snapshotOf_wf hr hus hs0
      obtain ⟨s₂, h2, h3⟩ := takenFrom_undo ht hwf hl
      have hcx : cat x = s₁.content := hc w s₁ (by rw [← List.cons_append, List.getLast?_append]; rfl) hs₁
      rw [hdown] at hx1
      have hcy := script_follow ho (takenFrom_wf ht hwf) h2 hpl hcx hx1
      refine down_follow ho hr r y x' (Linked.append.1 hlink).1 (fun z hz => hst z ?_) (fun z hz => hp z (by simp [hz]))
        ?_ hx2
      · rw [e]
        exact List.mem_append_left _ hz
      · intro u' s' hu' hs'
        rw [hu] at hu'
        cases hu'
        cases hs'.unique hs0
        rw [hcy, h3]

/-- C67 (partial).  If the schema of the database is that of its version, then after a successful `down`
it is that of the version the database is then on — for every server that does what statements say, where
for each version that is no longer recorded no change loses anything (C07) and the SQL text of the reverting
changes is right (C56) and free of surprises.  `d` is a history directory that has the versions recorded.
Missing for the full property: other changes; see `C67_drop_column_false`. -/
theorem C67_down_follows_partial {B : Behaviour σ} {cat : σ → Content}
    {free : Change → Content → Prop} (ho : Obedient B cat free) {d : HDir} (hr : Reachable d)
    {db db' : DB σ} (hdb : Reach B db) {target : Option String} (h : down B target db = (db', .ok))
    (hst : ∀ v ∈ db.applied, Stored d v.name v) {cur : Version}
    (hcur : db.applied.getLast? = some cur) {s : Database} (hs : SnapshotOf d cur.name s)
    (hc : cat db.data = s.content)
    (hp : ∀ v ∈ db.applied, v ∉ db'.applied → ∀ p s₀ rs s₁, v.previous = some p → SnapshotOf d p s₀ →
      TakenFrom v.changes s₀ rs s₁ →
      (∀ a c b s₂, v.changes = a ++ c :: b → Change.applyAll a s₀ = .ok s₂ → ¬ Lossy s₂.content c) ∧
      Plain free s₁ rs.reverse) :
    ∃ v s', db'.applied.getLast? = some v ∧ SnapshotOf d v.name s' ∧ cat db'.data = s'.content := by
  obtain ⟨pre, v, post, h1, h2, h3⟩ := down_does hdb h
  have hchain : Linked none db.applied ∧ (db.applied.map Version.name).Nodup := by
    rcases C35_version_table_chain_partial hdb with ha | ⟨t, ht, hch⟩
    · unfold DB.applied; rw [ha]; exact ⟨⟨rfl, trivial⟩, by simp⟩
    · unfold DB.applied
      rw [ht, List.map_map]
      exact ⟨hch.linked, hch.names⟩
  have hlast : (pre ++ v :: post).getLast? = (v :: post).getLast? := by
    rw [List.getLast?_append]
    cases hq : (v :: post).getLast? with
    | none => simp at hq
    | some q => rfl
  obtain ⟨s', h4, h5⟩ := down_follow ho hr (pre := pre) (v := v) post.reverse db.data db'.data
    (by rw [List.reverse_reverse, ← h1]; exact hchain.1)
    (by rw [List.reverse_reverse, ← h1]; exact hst)
    (by
      intro w hw
      rw [List.mem_reverse] at hw
      refine hp w (by rw [h1]; simp [hw]) ?_
      rw [h3]
      intro hm
      have hn := hchain.2
      rw [h1, show pre ++ v :: post = (pre ++ [v]) ++ post by simp, List.map_append,
        List.nodup_append] at hn
      exact hn.2.2 _ (List.mem_map_of_mem hm) _ (List.mem_map_of_mem hw) rfl)
    (by
      intro u s₁ hu hs₁
      rw [List.reverse_reverse, ← hlast, ← h1, hcur] at hu
      cases hu
      cases hs.unique hs₁
      exact hc)
    h2
  exact ⟨v, s', by rw [h3]; simp, h4, h5⟩

/-- The full C67 is false whenever the version that is taken back dropped a column: the database gets it
back with the opposite nullability, so that its schema is not that of the version it is then on. -/
theorem C67_drop_column_false {B : Behaviour σ} {cat : σ → Content} {free : Change → Content → Prop}
    (ho : Obedient B cat free) {d : HDir} (hr : Reachable d) {db db' : DB σ} (hdb : Reach B db)
    {pre : List Version} {u v : Version} (ha : db.applied = pre ++ [u, v])
    (h : down B none db = (db', .ok)) (hu : Stored d u.name u) (hst : Stored d v.name v) {s : Database}
    (hs : SnapshotOf d v.name s) (hc : cat db.data = s.content) {sn tn n : String}
    (hv : v.changes = [.dropColumn sn tn n]) (hsn : '"' ∉ sn.toList) (htn : '"' ∉ tn.toList)
    (hn : '"' ∉ n.toList) (hf : ∀ s₀ ty nn df, SnapshotOf d u.name s₀ →
      (Change.dropColumn sn tn n).revert s₀ = .ok (.addColumn sn tn n ty nn df) →
      free (.addColumn sn tn n ty (!nn) df) s.content) :
    db'.applied = pre ++ [u] ∧ ∃ s', SnapshotOf d u.name s' ∧ cat db'.data ≠ s'.content := by
  have ha' : db.applied = (pre ++ [u]) ++ [v] := by rw [ha]; simp
  obtain ⟨h1, h2⟩ := C36_down_one_partial hdb ha' (by simp) h
  refine ⟨h2, ?_⟩
  obtain ⟨_, s₀, rs, s₁, hp0, ht, hs₁, hdown, _⟩ := C28_scripts_aligned hr hst
  have hlink : Linked none db.applied := by
    rcases C35_version_table_chain_partial hdb with hm | ⟨t, ht, hch⟩
    · unfold DB.applied; rw [hm]; exact ⟨rfl, trivial⟩
    · unfold DB.applied
      rw [ht]
      exact hch.linked
  rw [ha'] at hlink
  have hprev := hlink.prev_last
  simp only [List.getLast?_append, List.getLast?_singleton, Option.some_or, Option.map_some] at hprev
  rcases hp0 with ⟨h0, _⟩ | ⟨p', h0, hs0⟩
  · rw [hprev] at h0; cases h0
  · rw [hprev] at h0
    cases h0
    refine ⟨s₀, hs0, fun heq => ?_⟩
    cases hs.unique hs₁
    have hwf := snapshotOf_wf hr hu hs0
    rw [hv] at ht
    cases ht with
    | cons hrev hap ht' =>
      cases ht'
      obtain ⟨ty, nn, df, rfl, he⟩ := revert_dropColumn hwf (apply_effect hwf hap) hrev
      obtain ⟨C, h3, h4⟩ := effect_addColumn he (!nn)
      rw [hdown] at h1
      cases h1 with
      | cons hq hx =>
        cases hx
        have := ho _ _ _ _ _ (C17_add_column_false sn tn n ty nn df hsn htn hn).1
          (by rw [hc]; exact hf _ _ _ _ hs0 hrev) (by rw [hc]; exact h3) hq
        have := h4 (by rw [← heq, this])
        cases nn <;> cases this

/-! ### A server for the examples -/

/-- The change of the examples, and the one that reverts it. -/
def exCreate : Change := .createTable "public" "t" [⟨"id", "int8", false, none⟩]
def exDrop : Change := .dropTable "public" "t"

/-- The snapshots without and with the table. -/
def exDb : Bool → Database
  | false => ⟨[("public", Schema.new "public")]⟩
  | true => ⟨[("public", ⟨"public", [("t", .table ⟨"public", "t",
      [⟨"public", "t", "id", "int8", false, none⟩], []⟩)], []⟩)]⟩

theorem exDb_ne : (exDb false).content ≠ (exDb true).content := by
  intro h
  have := congrArg (fun C => (colAt C "public" "t" "id").isSome) h
  revert this
  decide

/-- A server that knows two statements; its state says whether the table is there. -/
def exB : Behaviour Bool :=
  ⟨fun x q => if x = false ∧ q = exCreate.renderSql then some true
    else if x = true ∧ q = exDrop.renderSql then some false else none,
   fun _ => true, fun _ => true, fun _ => true⟩

/-- Where its statements hold no surprises. -/
def exFree (c : Change) (C : Content) : Prop :=
  (c = exCreate ∧ C = (exDb false).content) ∨ (c = exDrop ∧ C = (exDb true).content)

theorem exDb_wf (b : Bool) : (exDb b).WF := by
  have h : ∃ cs, Change.applyAll cs Database.new = .ok (exDb b) := by
    cases b
    · exact ⟨[.createSchema "public"], rfl⟩
    · exact ⟨[.createSchema "public", exCreate], rfl⟩
  obtain ⟨cs, h⟩ := h
  exact applyAll_wf Database.new_wf h

theorem exB_obedient : Obedient exB (fun x => (exDb x).content) exFree := by
  intro c q x x' C _ hf he hx
  rcases hf with ⟨rfl, h⟩ | ⟨rfl, h⟩
  · cases x with
    | true => exact absurd h.symm exDb_ne
    | false =>
      have h1 := apply_effect (exDb_wf false) (c := exCreate) (d' := exDb true) rfl
      simp only [he, Option.some.injEq] at h1
      simp only [exB, true_and, Bool.false_eq_true, false_and, if_false] at hx
      split at hx
      · cases hx; exact h1.symm
      · cases hx
  · cases x with
    | false => exact absurd h exDb_ne
    | true =>
      have h1 := apply_effect (exDb_wf true) (c := exDrop) (d' := exDb false) rfl
      simp only [he, Option.some.injEq] at h1
      simp only [exB, true_and, Bool.true_eq_false, false_and, if_false] at hx
      split at hx
      · cases hx; exact h1.symm
      · cases hx

/-- The history: the table staged and made. -/
def exDir : HDir := (runCommands 9 [.stage (.ok (exDb true)), .make "1" none] initDir).getD []

theorem exDir_reachable : Reachable exDir := by
  have h1 : Reachable ((runCommands 9 [.stage (.ok (exDb true))] initDir).getD []) :=
    .step (fuel := 9) (c := .stage (.ok (exDb true))) (ok := true) .init
      (by intro _ _ h; cases h) rfl
  exact .step (fuel := 9) (c := .make "1" none) (ok := true) h1
    (by intro _ _ h; cases h; exact ⟨rfl, noYaml (by decide)⟩) rfl

def exVersion : Version :=
  ⟨"1-auto", some "init", [exCreate], [exCreate.renderSql], [exDrop.renderSql]⟩

def exOld : DB Bool := ⟨.absent, false⟩
def exNew : DB Bool := ⟨.table ⟨[⟨Version.newInit, 1⟩, ⟨exVersion, 2⟩], 3⟩, true⟩

theorem exUp : up exB 9 exDir none exOld = some (exNew, .ok) := by rfl

theorem exStored {v : Version} {n : String} (h : Stored exDir n v) :
    v = Version.newInit ∨ v = exVersion ∨ v = Version.newStage "1-auto" := by
  have h1 : (n ++ ".yaml", Entry.file (some v)) ∈ exDir := AMap.mem_of_get? h
  have he : exDir = [("init.yaml", .file (some Version.newInit)),
    ("stage.yaml", .file (some (Version.newStage "1-auto"))), ("1-auto.yaml", .file (some exVersion))] := by
    rfl
  rw [he] at h1
  simp only [List.mem_cons, Prod.mk.injEq, Entry.file.injEq, Option.some.injEq, List.not_mem_nil,
    or_false] at h1
  rcases h1 with ⟨_, h⟩ | ⟨_, h⟩ | ⟨_, h⟩
  · exact .inl h
  · exact .inr (.inr h)
  · exact .inr (.inl h)

theorem exPlain (b : Bool) : Plain exFree (exDb b) [if b then exDrop else exCreate] := by
  intro pre c post s₀ h1 h2
  cases pre with
  | cons x pre =>
    simp at h1
  | nil =>
    cases h1
    cases h2
    cases b
    · refine ⟨?_, by decide, .inl ⟨rfl, rfl⟩⟩
      intro c hc
      simp only [List.mem_singleton] at hc
      subst hc
      rfl
    · exact ⟨trivial, by decide, .inr ⟨rfl, rfl⟩⟩

theorem exSnapshots : SnapshotOf exDir "init" (exDb false) ∧ SnapshotOf exDir "1-auto" (exDb true) :=
  ⟨⟨9, rfl⟩, ⟨9, rfl⟩⟩

/-- C66 applies: the table is there after `up`. -/
example : (exDb exNew.data).content = (exDb true).content := by
  obtain ⟨v, s', h1, h2, h3⟩ := C66_up_follows_partial exB_obedient exDir_reachable (.new false) exUp rfl
    exSnapshots.1 rfl (by
      intro v hv hnot p s₀ hp hs₀
      simp only [show exNew.applied = [Version.newInit, exVersion] from rfl, List.mem_cons,
        List.not_mem_nil, or_false] at hv
      rcases hv with rfl | rfl
      · cases hp
      · cases hp
        cases hs₀.unique exSnapshots.1
        exact exPlain false)
  cases h1
  cases h2.unique exSnapshots.2
  exact h3

/-- C67 applies: the table is gone again after `down`. -/
example : ∃ db', down exB none exNew = (db', .ok) ∧ (exDb db'.data).content = (exDb false).content := by
  have hr : Reach exB exNew := .up (.new false) exDir_reachable.namedAfterVersion exUp
  have hok : (down exB none exNew).2 = .ok :=
    (C36_down_one_succeeds hr (pre := [Version.newInit]) rfl (by simp)).2 ⟨false, script_iff.2 rfl, rfl⟩
  refine ⟨(down exB none exNew).1, by rw [← hok], ?_⟩
  have hd : down exB none exNew = ((down exB none exNew).1, .ok) := by rw [← hok]
  have happ := (C36_down_one_partial hr (pre := [Version.newInit]) rfl (by simp) hd).2
  obtain ⟨v, s', h1, h2, h3⟩ := C67_down_follows_partial exB_obedient exDir_reachable hr hd (by
      intro v hv
      simp only [show exNew.applied = [Version.newInit, exVersion] from rfl, List.mem_cons,
        List.not_mem_nil, or_false] at hv
      rcases hv with rfl | rfl <;> rfl) rfl exSnapshots.2 rfl (by
      intro v hv hnot p s₀ rs s₁ hp hs₀ ht
      rw [happ] at hnot
      simp only [show exNew.applied = [Version.newInit, exVersion] from rfl, List.mem_cons,
        List.not_mem_nil, or_false] at hv hnot
      rcases hv with rfl | rfl
      · exact absurd rfl hnot
      · cases hp
        cases hs₀.unique exSnapshots.1
        have h1 : (exCreate).revert (exDb false) = .ok exDrop := rfl
        have h2 : (exCreate).apply (exDb false) = .ok (exDb true) := rfl
        change TakenFrom [exCreate] _ _ _ at ht
        cases ht with
        | cons hrev hap ht' =>
          cases ht'
          rw [h1] at hrev
          rw [h2] at hap
          cases hrev
          cases hap
          refine ⟨?_, exPlain true⟩
          intro a c b s₂ h3 _
          cases a with
          | cons x a => simp [exVersion] at h3
          | nil => cases h3; exact id)
  rw [happ] at h1
  cases h1
  cases h2.unique exSnapshots.1
  exact h3

/-- The history with the column not null. -/
def exDir' : HDir := (runCommands 9 [.stage (.ok ⟨[("public", ⟨"public", [("t", .table ⟨"public", "t",
  [⟨"public", "t", "id", "int8", true, none⟩], []⟩)], []⟩)]⟩), .make "1" none] initDir).getD []

/-- A server that knows the statement podo writes for it, and what it says. -/
def exB' : Behaviour Bool :=
  ⟨fun x q => if x = false ∧ q = "CREATE TABLE \"public\".\"t\" (\"id\" int8);" then some true else none,
   fun _ => true, fun _ => true, fun _ => true⟩

/-- The hypotheses of `C66_not_null_false` are met. -/
example : Obedient exB' (fun x => (exDb x).content)
      (fun c C => c = exCreate ∧ C = (exDb false).content) ∧ Reachable exDir' ∧
    ∃ db' v, up exB' 9 exDir' none exOld = some (db', .ok) ∧ db'.applied = exOld.applied ++ [v] ∧
      v.changes = [.createTable "public" "t" [⟨"id", "int8", true, none⟩]] := by
  refine ⟨?_, ?_, ⟨.table ⟨[⟨Version.newInit, 1⟩, ⟨⟨"1-auto", some "init",
    [.createTable "public" "t" [⟨"id", "int8", true, none⟩]],
    ["CREATE TABLE \"public\".\"t\" (\"id\" int8);"], [exDrop.renderSql]⟩, 2⟩], 3⟩, true⟩, _, rfl, rfl, rfl⟩
  · intro c q x x' C _ hf he hx
    obtain ⟨rfl, h⟩ := hf
    cases x with
    | true => exact absurd h.symm exDb_ne
    | false =>
      have h1 := apply_effect (exDb_wf false) (c := exCreate) (d' := exDb true) rfl
      simp only [he, Option.some.injEq] at h1
      simp only [exB', true_and] at hx
      split at hx
      · cases hx; exact h1.symm
      · cases hx
  · exact .step (fuel := 9) (c := .make "1" none) (ok := true)
      (.step (fuel := 9) (c := .stage (.ok ⟨[("public", ⟨"public", [("t", .table ⟨"public", "t",
        [⟨"public", "t", "id", "int8", true, none⟩], []⟩)], []⟩)]⟩)) (ok := true) .init
        (by intro _ _ h; cases h) rfl)
      (by intro _ _ h; cases h; exact ⟨rfl, noYaml (by decide)⟩) rfl

/-! A table that gets a column, and a table that gets back one it has lost. -/

/-- The database without the table, with the table of one column, and with two, the second nullable or not. -/
inductive ExState where
  | none
  | bare
  | wide (nn : Bool)

def ExState.db : ExState → Database
  | .none => exDb false
  | .bare => exDb true
  | .wide nn => ⟨[("public", ⟨"public", [("t", .table ⟨"public", "t",
      [⟨"public", "t", "id", "int8", false, .none⟩, ⟨"public", "t", "n", "text", nn, .none⟩], []⟩)], []⟩)]⟩

def exAdd (nn : Bool) : Change := .addColumn "public" "t" "n" "text" nn none
def exLose : Change := .dropColumn "public" "t" "n"

/-- A server that reads the texts for what they say: where podo means the opposite, too. -/
def exC : Behaviour ExState :=
  ⟨fun x q => match x with
    | .none =>
      if q = exCreate.renderSql then some .bare
      else if q = "CREATE TABLE \"public\".\"t\" (\"id\" int8 NULL, \"n\" text NULL);" then some (.wide false)
      else none
    | .bare =>
      if q = "ALTER TABLE \"public\".\"t\" ADD COLUMN \"n\" text NOT NULL;" then some (.wide true)
      else if q = "ALTER TABLE \"public\".\"t\" ADD COLUMN \"n\" text;" then some (.wide false)
      else none
    | .wide _ => if q = exLose.renderSql then some .bare else none,
   fun _ => true, fun _ => true, fun _ => true⟩

/-- Adding the column to the table without it holds no surprises. -/
def exCFree (c : Change) (C : Content) : Prop := (∃ nn, c = exAdd nn) ∧ C = ExState.bare.db.content

theorem exC_obedient : Obedient exC (fun x => x.db.content) exCFree := by
  intro c q x x' C hsays hf he hx
  obtain ⟨⟨nn, rfl⟩, h⟩ := hf
  have hbare : x = .bare := by
    cases x with
    | none => exact absurd h exDb_ne
    | bare => rfl
    | wide b =>
      exfalso
      have := congrArg (fun C => (colAt C "public" "t" "n").isSome) h
      revert this
      cases b <;> decide
  subst hbare
  have h1 := apply_effect (exDb_wf true) (c := exAdd nn) (d' := (ExState.wide nn).db) (by cases nn <;> rfl)
  change Spec.effect (exAdd nn) (exDb true).content = _ at he
  simp only [he, Option.some.injEq] at h1
  have hno : ∀ b, ¬ Says (exAdd b).renderSql (exAdd b) := fun b =>
    (C17_add_column_false "public" "t" "n" "text" b none (by decide) (by decide) (by decide)).2
  simp only [exC] at hx
  split at hx
  · next hq =>
    cases hx
    cases nn with
    | true => exact h1.symm
    | false => exact absurd (by rw [hq] at hsays; exact hsays) (hno false)
  · split at hx
    · next hq =>
      cases hx
      cases nn with
      | false => exact h1.symm
      | true => exact absurd (by rw [hq] at hsays; exact hsays) (hno true)
    · cases hx

/-- Two definitions in turn, each staged and made. -/
def exTwice (a b : Database) : HDir :=
  (runCommands 9 [.stage (.ok a), .make "1" none, .stage (.ok b), .make "2" none] initDir).getD []

/-- The full C66 fails on this server: the column is to be not null, and is nullable. -/
example : Reachable (exTwice (exDb true) (ExState.wide true).db) ∧ ∃ db db' v,
    Reach exC db ∧ up exC 9 (exTwice (exDb true) (ExState.wide true).db) none db = some (db', .ok) ∧
    db'.applied = db.applied ++ [v] ∧ v.changes = [exAdd true] ∧
    ∃ s', SnapshotOf (exTwice (exDb true) (ExState.wide true).db) v.name s' ∧ db'.data.db.content ≠ s'.content := by
  have hr0 : Reachable ((runCommands 9 [.stage (.ok (exDb true)), .make "1" none] initDir).getD []) :=
    exDir_reachable
  have hr1 : Reachable ((runCommands 9 [.stage (.ok (exDb true)), .make "1" none,
      .stage (.ok (ExState.wide true).db)] initDir).getD []) :=
    .step (fuel := 9) (c := .stage (.ok (ExState.wide true).db)) (ok := true) hr0
      (by intro _ _ h; cases h) rfl
  have hr : Reachable (exTwice (exDb true) (ExState.wide true).db) :=
    .step (fuel := 9) (c := .make "2" none) (ok := true) hr1
      (by intro _ _ h; cases h; exact ⟨rfl, noYaml (by decide)⟩) rfl
  have h1 : up exC 9 exDir none ⟨.absent, .none⟩ =
      some (⟨.table ⟨[⟨Version.newInit, 1⟩, ⟨exVersion, 2⟩], 3⟩, .bare⟩, .ok) := by rfl
  have hdb := Reach.up (.new ExState.none) exDir_reachable.namedAfterVersion h1
  have h2 : up exC 9 (exTwice (exDb true) (ExState.wide true).db) none
      ⟨.table ⟨[⟨Version.newInit, 1⟩, ⟨exVersion, 2⟩], 3⟩, .bare⟩ =
      some (⟨.table ⟨[⟨Version.newInit, 1⟩, ⟨exVersion, 2⟩, ⟨⟨"2-auto", some "1-auto", [exAdd true],
        [(exAdd true).renderSql], [exLose.renderSql]⟩, 3⟩], 4⟩, .wide false⟩, .ok) := by rfl
  refine ⟨hr, _, _, _, hdb, h2, rfl, rfl, ?_⟩
  exact C66_add_column_false exC_obedient hr hdb h2 (cur := exVersion) rfl (s := exDb true) ⟨9, rfl⟩ rfl rfl
    rfl (by decide) (by decide) (by decide) ⟨⟨_, rfl⟩, rfl⟩

/-- The full C67 fails on this server: the column was nullable, and comes back as not null. -/
example : Reachable (exTwice (ExState.wide false).db (exDb true)) ∧ ∃ db db' u v,
    Reach exC db ∧ db.applied = [Version.newInit, u, v] ∧ v.changes = [exLose] ∧
    down exC none db = (db', .ok) ∧ db'.applied = [Version.newInit, u] ∧
    ∃ s', SnapshotOf (exTwice (ExState.wide false).db (exDb true)) u.name s' ∧ db'.data.db.content ≠ s'.content := by
  have hr0 : Reachable ((runCommands 9 [.stage (.ok (ExState.wide false).db)] initDir).getD []) :=
    .step (fuel := 9) (c := .stage (.ok (ExState.wide false).db)) (ok := true) .init
      (by intro _ _ h; cases h) rfl
  have hr1 : Reachable ((runCommands 9 [.stage (.ok (ExState.wide false).db), .make "1" none] initDir).getD []) :=
    .step (fuel := 9) (c := .make "1" none) (ok := true) hr0
      (by intro _ _ h; cases h; exact ⟨rfl, noYaml (by decide)⟩) rfl
  have hr2 : Reachable ((runCommands 9 [.stage (.ok (ExState.wide false).db), .make "1" none,
      .stage (.ok (exDb true))] initDir).getD []) :=
    .step (fuel := 9) (c := .stage (.ok (exDb true))) (ok := true) hr1 (by intro _ _ h; cases h) rfl
  have hr : Reachable (exTwice (ExState.wide false).db (exDb true)) :=
    .step (fuel := 9) (c := .make "2" none) (ok := true) hr2
      (by intro _ _ h; cases h; exact ⟨rfl, noYaml (by decide)⟩) rfl
  let u : Version := ⟨"1-auto", some "init", [.createTable "public" "t" [⟨"id", "int8", false, none⟩,
    ⟨"n", "text", false, none⟩]], ["CREATE TABLE \"public\".\"t\" (\"id\" int8 NULL, \"n\" text NULL);"],
    [exDrop.renderSql]⟩
  let v : Version := ⟨"2-auto", some "1-auto", [exLose], [exLose.renderSql], [(exAdd false).renderSql]⟩
  have hup : up exC 9 (exTwice (ExState.wide false).db (exDb true)) none ⟨.absent, .none⟩ =
      some (⟨.table ⟨[⟨Version.newInit, 1⟩, ⟨u, 2⟩, ⟨v, 3⟩], 4⟩, .bare⟩, .ok) := by rfl
  have hdb := Reach.up (.new ExState.none) hr.namedAfterVersion hup
  have hok : (down exC none ⟨.table ⟨[⟨Version.newInit, 1⟩, ⟨u, 2⟩, ⟨v, 3⟩], 4⟩, .bare⟩).2 = .ok :=
    (C36_down_one_succeeds hdb (pre := [Version.newInit, u]) rfl (by simp)).2
      ⟨.wide true, script_iff.2 rfl, rfl⟩
  obtain ⟨h1, h2⟩ := C67_drop_column_false exC_obedient hr hdb (pre := [Version.newInit]) rfl
    (Prod.ext rfl hok) rfl rfl (s := exDb true) ⟨9, rfl⟩ rfl rfl (by decide) (by decide) (by decide) (by
      intro s₀ ty nn df hs₀ hrev
      cases hs₀.unique (⟨9, rfl⟩ : SnapshotOf (exTwice (ExState.wide false).db (exDb true)) "1-auto"
        (ExState.wide false).db)
      rw [show (Change.dropColumn "public" "t" "n").revert (ExState.wide false).db = .ok (exAdd false) from rfl]
        at hrev
      cases hrev
      exact ⟨⟨_, rfl⟩, rfl⟩)
  exact ⟨hr, _, _, u, v, hdb, rfl, rfl, Prod.ext rfl hok, h1, h2⟩

namespace Prog
open Proj Diff

/-- C66 (partial), the whole way (see C63).  When `stage` has succeeded and something is staged, `make`
and `up` bring the database from the schema of its version to the schema the definitions state, exactly when
no index differs in other than its keys and every owned sequence was staged already, unchanged (C01) — for
every server that does what statements say, where the SQL text of the staged changes is right and free of
surprises. -/
theorem C66_workflow_partial {S : Setting σ} {w w₁ : World σ} {cwd : Proj.Path} {q : Profile}
    (hq : ProfileAt S.env w.fs cwd "database" q) (hr : Reachable (w.fs.history q.history))
    {t s : Database} (ht : definitions w.fs q.definitions = .ok t)
    (hs : SnapshotOf (w.fs.history q.history) "stage" s)
    (hi : S.Reads q.metadataSchema) {sv : Server σ} (hsv : w.servers q.databaseUrl = some sv)
    (hdb : Pg.Reach S.B (sv.db q.metadataSchema)) {cur : Version}
    (hcur : (sv.db q.metadataSchema).applied.getLast? = some cur)
    (hop : Opens (w.fs.history q.history) cur.name)
    {label : Option String} {n : String} (hn : n = S.now ++ "-" ++ label.getD "auto")
    (hf : FreshName (w.fs.history q.history) n) (hsl : '/' ∉ n.toList) {o₁ : List String}
    (h₁ : Ends S w cwd (.stage "database") w₁ o₁ .success) {st : Version}
    (hst : Stored (w₁.fs.history q.history) "stage" st) (hne : st.changes ≠ []) {y : σ}
    (hup : Pg.Script S.B sv.data st.up y) (hcy : S.B.commits y = true)
    (hrec : Pg.Recordable S.B (sv.db q.metadataSchema) [{ st with name := n }])
    {cat : σ → Content} {free : Change → Content → Prop} (ho : Obedient S.B cat free) {s₀ : Database}
    (hs₀ : SnapshotOf (w.fs.history q.history) cur.name s₀) (hc : cat sv.data = s₀.content)
    (hp : Plain free s₀ st.changes) :
    ∃ w₂ w₃ o₂ o₃ sv₃, Ends S w₁ cwd (.make "database" label) w₂ o₂ .success ∧
      Ends S w₂ cwd (.up "database" none) w₃ o₃ .success ∧
      w₃.servers q.databaseUrl = some sv₃ ∧
      (cat sv₃.data = t.content ↔
        SameKeyIndexesAgree s.content t.content ∧ OwnedSequencesUnchanged s.content t.content) := by
  obtain ⟨w₂, w₃, o₂, o₃, sv₃, out, h2, h3, h4, h5, _⟩ := C63_workflow_partial hq hr ht hs hi hsv hdb hcur hop hn hf
    hsl h₁ hst hne hup hcy hrec
  refine ⟨w₂, w₃, o₂, o₃, sv₃, h2, h3, h4, ?_⟩
  rw [h5]
  obtain ⟨f₁, h₁⟩ := h₁
  rw [run_stage hq, ht] at h₁
  obtain ⟨d₁, he₁, rfl⟩ := runHist_success h₁
  have htwf : t.WF := definitions_wf ht
  obtain ⟨s', st', hs', hst', hswf, _, hall⟩ := C57_stage_reaches_definitions_partial hr htwf
  cases hs.unique hs'
  obtain ⟨s₁, st₁, hs₁, hst₁, ha₁, hch₁, hpr₁, hfiles₁, hiff⟩ := hall d₁ ⟨f₁, he₁⟩
  have hg₁ : update w.fs.history q.history d₁ q.history = d₁ := update_self _ _ _
  dsimp only at hst
  rw [hg₁] at hst
  cases hst.unique hst₁
  have hr₁ : Reachable d₁ := .step hr (by intro _ _ h; cases h) he₁
  obtain ⟨hpv, v₀, hv₀⟩ := stage_previous hr hop hst'
  -- the snapshot of the predecessor in the new directory
  obtain ⟨hupt, s₂, rs, s₃, hp0, htk, hs₃, _, _⟩ := C28_scripts_aligned hr₁ hst₁
  cases hs₃.unique hs₁
  rw [hpr₁, hpv] at hp0
  rcases hp0 with ⟨h0, _⟩ | ⟨p', h0, hs2⟩
  · cases h0
  · cases h0
    have he : s₂ = s₀ := hs2.unique (stage_keeps_snapshot hr hop he₁ hs₀)
    subst he
    rw [hupt] at hup
    have hfin := script_follow ho (snapshotOf_wf hr hv₀ hs₀) htk.applyAll hp hc hup
    rw [hfin]
    exact hiff

/-- The program at work on the server of the examples. -/
def exSetting : Setting Bool :=
  ⟨demoEnv, exB, readSchema, fun _ => none, "cannot connect", "20200202_000000"⟩

/-- A new project that defines the table, with a database podo has not seen. -/
def exWorld : World Bool :=
  ⟨progFs initDir [("public.yaml", .map [some "schema public"] [.map [some "table t"]
    [.map [some "column id"] [.str "int8"]]])], fun _ => some ⟨fun _ => .absent, false⟩⟩

def exStage : Version := ⟨"stage", some "init", [exCreate], [exCreate.renderSql], [exDrop.renderSql]⟩

/-- The version files of the example, once the definitions are staged. -/
def exStaged : HDir :=
  [("init.yaml", .file (some Version.newInit)), ("stage.yaml", .file (some exStage))]

theorem exWorld_defs : definitions exWorld.fs progProfile.definitions = .ok (exDb true) := by
  show Def.loadDir [.file "public.yaml" _] = _
  decide +kernel

theorem exWorld_staged : ∃ w₁ o₁, Ends exSetting exWorld ["w"] (.stage "database") w₁ o₁ .success ∧
    w₁.fs.history progProfile.history = exStaged := by
  have hq : ProfileAt exSetting.env exWorld.fs ["w"] "database" progProfile := progFs_profile _ _
  have he : HistCmd.exec 9 (.stage (.ok (exDb true))) (exWorld.fs.history progProfile.history) =
      some (exStaged, true) := rfl
  obtain ⟨w₁, o, h1, _, h2, _⟩ := runHist_ok he
  refine ⟨w₁, o, ⟨9, ?_⟩, ?_⟩
  rotate_left
  · rw [h2]; exact update_self exWorld.fs.history progProfile.history exStaged
  rw [run_stage hq, exWorld_defs]
  exact h1

/-- C66 applies the whole way: staged, made, applied, and the table is there. -/
example : ∃ w₁ o₁ w₂ o₂ w₃ o₃ sv₃, Ends exSetting exWorld ["w"] (.stage "database") w₁ o₁ .success ∧
    Ends exSetting w₁ ["w"] (.make "database" none) w₂ o₂ .success ∧
    Ends exSetting w₂ ["w"] (.up "database" none) w₃ o₃ .success ∧
    w₃.servers progProfile.databaseUrl = some sv₃ ∧
    (exDb sv₃.data).content = (exDb true).content := by
  obtain ⟨w₁, o₁, h1, hd⟩ := exWorld_staged
  have hq : ProfileAt exSetting.env exWorld.fs ["w"] "database" progProfile := progFs_profile _ _
  have hrec : Pg.Recordable exSetting.B ((⟨fun _ => .absent, false⟩ : Server Bool).db "podo_meta")
      [{ exStage with name := "20200202_000000-auto" }] := by
    refine ⟨?_, fun _ _ => rfl, by decide, fun t h => by (cases h), fun _ => ⟨rfl, rfl, by decide⟩,
      fun h => by (cases h)⟩
    intro v hv
    simp only [List.mem_singleton] at hv
    subst hv
    refine ⟨by decide, ?_⟩
    intro p hp
    cases hp
    decide
  obtain ⟨w₂, w₃, o₂, o₃, sv₃, h2, h3, h4, h5⟩ :=
    C66_workflow_partial (S := exSetting) (w := exWorld) (w₁ := w₁) hq (hi := podo_meta_reads) (hr := .init)
      (t := exDb true) (s := exDb false) exWorld_defs ⟨9, rfl⟩
      (sv := ⟨fun _ => .absent, false⟩) rfl (.new false) (cur := Version.newInit) rfl ⟨9, _, rfl⟩
      (label := none) (n := "20200202_000000-auto") rfl ⟨rfl, noYaml (by decide)⟩ (by decide) h1
      (st := exStage) (by rw [hd]; rfl) (by simp [exStage])
      (y := true) (Pg.script_iff.2 rfl) rfl hrec exB_obedient (s₀ := exDb false) ⟨9, rfl⟩ rfl (exPlain false)
  refine ⟨w₁, o₁, w₂, o₂, w₃, o₃, sv₃, h1, h2, h3, h4, h5.2 ?_⟩
  have e : ∀ n, (exDb true).content n = if "public" = n then some (Schema.content ⟨"public",
        [("t", .table ⟨"public", "t", [⟨"public", "t", "id", "int8", false, none⟩], []⟩)], []⟩)
        else none := by
    intro n
    show Option.map Schema.content (if "public" = n then _ else none) = _
    split <;> rfl
  constructor
  · rintro n r p q _ h7 _
    exfalso
    obtain ⟨sc, h7, h8⟩ := h7
    rw [e] at h7
    split at h7
    · cases h7
      simp only [Schema.content, AMap.get?] at h8
      split at h8 <;> cases h8
    · cases h7
  · rintro n r q ⟨sc, h6, h7⟩ _
    exfalso
    rw [e] at h6
    split at h6
    · cases h6
      simp only [Schema.content, AMap.get?] at h7
      split at h7 <;> cases h7
    · cases h6

end Prog
end Podo
