import Verif.Spec.Endings
import Verif.Proofs.UpEnds
import Verif.Proofs.Loops
import Verif.Proofs.Output
import Verif.Props.Pg
/-
All the ways in which `up` and `down` can end.
-/
namespace Podo
namespace Pg
variable {σ : Type}

/-- There is only one way. -/
theorem Way.unique {d : HDir} {a n : String} {ws ws' : List Version} (h : Way d a n ws) (h' : Way d a n ws') :
    ws = ws' := by
  have hn := path_unique h.path h'.path h.once h'.once
  have h1 := h.stored
  have h2 := h'.stored
  clear h h'
  induction ws generalizing ws' with
  | nil => cases ws' with
    | nil => rfl
    | cons w ws' => cases hn
  | cons w ws ih =>
    cases ws' with
    | nil => cases hn
    | cons w' ws' =>
      simp only [List.map_cons, List.cons.injEq] at hn
      have := h1 w (by simp)
      rw [hn.1] at this
      rw [this.unique (h2 w' (by simp)), ih hn.2 (fun x hx => h1 x (by simp [hx])) (fun x hx => h2 x (by simp [hx]))]

/-- A path that comes by its start again can be shortened. -/
theorem path_once {d : HDir} {a n : String} {l : List String} (h : VersionPath d a n l) :
    ∃ l', VersionPath d a n l' ∧ a ∉ l' := by
  induction h with
  | here h => exact ⟨[], .here h, by simp⟩
  | @later p b l v _ hs hp ih =>
    obtain ⟨l', h1, h2⟩ := ih
    by_cases hb : b = a
    · subst hb
      exact ⟨[], .here hs, by simp⟩
    · refine ⟨l' ++ [b], .later h1 hs hp, ?_⟩
      simp only [List.mem_append, List.mem_singleton, not_or]
      exact ⟨h2, fun e => hb e.symm⟩

/-- Where `n` goes back to `a` there is a way. -/
theorem Way.exists {d : HDir} (hn : StoredNames d) {a n : String} (h : OnPath d a n) : ∃ ws, Way d a n ws := by
  obtain ⟨l, hl⟩ := h
  obtain ⟨l', hp, ha⟩ := path_once hl
  obtain ⟨ws, hws, hst, _⟩ := path_versions hn hp
  subst hws
  exact ⟨ws, hp, ha, hst⟩

theorem Way.onPath {d : HDir} {a n : String} {ws : List Version} (h : Way d a n ws) : OnPath d a n := ⟨_, h.path⟩

theorem canStart_iff {B : Behaviour σ} {db : DB σ} (hm : db.metaSchema ≠ .noTable) :
    CanStart B db ↔ ∃ t, ensureInitialized B db = (.table t, true) := by
  constructor
  · intro h
    cases hc : db.metaSchema with
    | noTable => exact absurd hc hm
    | table t => exact ⟨t, by unfold ensureInitialized; rw [hc]⟩
    | absent =>
      obtain ⟨h1, h2⟩ := h hc
      refine ⟨⟨[⟨Version.newInit, 1⟩], 2⟩, ?_⟩
      have : VTable.insert B ⟨[], 1⟩ Version.newInit = (⟨[⟨Version.newInit, 1⟩], 2⟩, true) := by
        unfold VTable.insert
        rw [if_neg (by decide), if_pos (by rw [h2]; rfl)]
        rfl
      unfold ensureInitialized
      simp only [hc, h1, if_true, this]
  · rintro ⟨t, h⟩ ha
    exact ensure_created ha h

/-- Where the metadata schema cannot be created, nothing goes on. -/
theorem ensure_fails {B : Behaviour σ} {db : DB σ} (h : ¬ CanStart B db) :
    ∃ m, ensureInitialized B db = (m, false) := by
  have ha : db.metaSchema = .absent := Classical.byContradiction fun hne => h fun he => absurd he hne
  cases he : ensureInitialized B db with
  | mk m ok =>
    cases ok with
    | false => exact ⟨m, rfl⟩
    | true =>
      rcases ensure_cases he with ⟨h1, h2⟩ | ⟨_, h1⟩
      · exact absurd (h1.trans ha) h2
      · subst h1
        exact absurd (fun _ => ensure_created ha he) h

/-- Where predecessors can be numbered downwards there is no circle. -/
theorem not_circular {d : HDir} (h : Acyclic d) (n : String) : ¬ Circular d n := by
  obtain ⟨rank, hr⟩ := h
  have key : ∀ a b l, VersionPath d a b l → rank a ≤ rank b := by
    intro a b l hp
    induction hp with
    | here => exact Nat.le_refl _
    | later _ hs hp ih => exact Nat.le_trans ih (Nat.le_of_lt (hr _ _ _ hs hp))
  rintro ⟨c, v, p, _, hs, hp, l, hl⟩
  have h1 := hr c v p hs hp
  have h2 := key c p l hl
  omega

/-! ### up -/

/-- Where the metadata schema cannot be created, `up` reports an error. -/
theorem up_no_start {B : Behaviour σ} {d : HDir} {target : Option String} {db : DB σ} {cv : String}
    (hop : Opens d cv) (h : ¬ CanStart B db) : ∃ fuel db', up B fuel d target db = some (db', .error) := by
  obtain ⟨f, nm, hopen⟩ := hop
  obtain ⟨m, hm⟩ := ensure_fails h
  exact ⟨f, db.rollback m, by unfold up; rw [hopen]; simp only [hm]⟩

/-- Where there is no way and no circle, `up` reports an error. -/
theorem up_no_way {B : Behaviour σ} {d : HDir} (hn : StoredNames d) {target : Option String} {db : DB σ}
    (hg : Good db) {t₀ : VTable} (ht : ensureInitialized B db = (.table t₀, true)) {n cv : String}
    (hop : Opens d cv) (htar : target.getD cv = n) {cur : Version} (hcur : db.applied.getLast? = some cur)
    (hno : ¬ OnPath d cur.name n) (hc : ¬ Circular d n) :
    ∃ fuel db', up B fuel d target db = some (db', .error) := by
  obtain ⟨hch, happ, _⟩ := ensure_chain hg ht
  obtain ⟨q, r, hq⟩ := hch.split_last
  have hlastapp : db.applied.getLast? = some r.version := by rw [← happ, hq]; simp
  rw [hcur] at hlastapp
  cases hlastapp
  obtain ⟨f, nm, hopen⟩ := hop
  cases hto : d.getVersion n with
  | error e =>
    refine ⟨f, db.rollback (.table t₀), ?_⟩
    unfold up
    rw [hopen]
    simp only [ht, hch.current hq, htar, hto]
  | ok to =>
    have hton := hn _ _ (stored_iff.2 hto)
    have hne : ¬ ∀ fuel, HDir.upwardRange fuel d r.version.name n = none := fun hall =>
      hc (range_loops_iff.1 hall).2
    obtain ⟨k, hk⟩ := Classical.not_forall.1 hne
    cases hr : HDir.upwardRange k d r.version.name n with
    | none => exact absurd hr hk
    | some x =>
      cases x with
      | ok l =>
        obtain ⟨l', hp, _⟩ := path_of_rangeLoop hn hr
        exact absurd ⟨l', hp⟩ hno
      | error e =>
        have h1 := fromDir_mono (Nat.le_max_left f k) hopen
        have h2 := upwardRange_mono (Nat.le_max_right f k) hr
        refine ⟨max f k, db.rollback (.table t₀), ?_⟩
        unfold up
        rw [h1]
        simp only [ht, hch.current hq, htar, hto, hton, h2]

/-- Where there is no way but a circle, `up` goes on for ever. -/
theorem up_circles {B : Behaviour σ} {d : HDir} (hn : StoredNames d) {target : Option String} {db : DB σ}
    (hg : Good db) {t₀ : VTable} (ht : ensureInitialized B db = (.table t₀, true)) {n cv : String}
    (hop : Opens d cv) (htar : target.getD cv = n) {cur : Version} (hcur : db.applied.getLast? = some cur)
    (hno : ¬ OnPath d cur.name n) (hc : Circular d n) (fuel : Nat) : up B fuel d target db = none := by
  obtain ⟨hch, happ, _⟩ := ensure_chain hg ht
  obtain ⟨q, r, hq⟩ := hch.split_last
  have hlastapp : db.applied.getLast? = some r.version := by rw [← happ, hq]; simp
  rw [hcur] at hlastapp
  cases hlastapp
  obtain ⟨f, nm, hopen⟩ := hop
  obtain ⟨to, hto⟩ : ∃ v, Stored d n v := by
    obtain ⟨c, v, p, ⟨l, hl⟩, _⟩ := hc
    exact path_stored hl
  have hton := hn _ _ hto
  have hall := range_loops_iff.2 ⟨hno, hc⟩ fuel
  cases h : HDir.fromDir fuel d with
  | none => unfold up; rw [h]
  | some x =>
    have a := fromDir_mono (Nat.le_max_left fuel f) h
    have b := fromDir_mono (Nat.le_max_right fuel f) hopen
    rw [a] at b
    cases b
    unfold up
    rw [h]
    simp only [ht, hch.current hq, htar, stored_iff.1 hto, hton, hall]

/-- Where there is nothing to do, `up` succeeds. -/
theorem up_there {B : Behaviour σ} {d : HDir} (hn : StoredNames d) {target : Option String} {db : DB σ}
    (hg : Good db) {t₀ : VTable} (ht : ensureInitialized B db = (.table t₀, true)) {n cv : String}
    (hop : Opens d cv) (htar : target.getD cv = n) {cur : Version} (hcur : db.applied.getLast? = some cur)
    (hw : Way d cur.name n []) : ∃ fuel db', up B fuel d target db = some (db', .ok) := by
  obtain ⟨hch, happ, _⟩ := ensure_chain hg ht
  obtain ⟨q, r, hq⟩ := hch.split_last
  have hlastapp : db.applied.getLast? = some r.version := by rw [← happ, hq]; simp
  rw [hcur] at hlastapp
  cases hlastapp
  obtain ⟨f, nm, hopen⟩ := hop
  obtain ⟨to, hto⟩ := path_stored hw.path
  have hton := hn _ _ hto
  have hr : HDir.upwardRange (f + 1) d r.version.name n = some (.ok []) :=
    upwardRange_mono (Nat.le_add_left 1 f) (rangeLoop_of_path hn hw.path hw.once [])
  refine ⟨f + 1, db.rollback (.table t₀), ?_⟩
  unfold up
  rw [fromDir_mono (Nat.le_add_right f 1) hopen]
  simp only [ht, hch.current hq, htar, stored_iff.1 hto, hton, hr]

/-- Along a way with something to do. -/
theorem up_way {B : Behaviour σ} {d : HDir} (hn : StoredNames d) {target : Option String} {db : DB σ}
    (hg : Good db) {t₀ : VTable} (ht : ensureInitialized B db = (.table t₀, true)) {n cv : String}
    (hop : Opens d cv) (htar : target.getD cv = n) {cur : Version} (hcur : db.applied.getLast? = some cur)
    {ws : List Version} (hw : Way d cur.name n ws) (hne : ws ≠ []) :
    ∃ fuel db' o, up B fuel d target db = some (db', o) ∧
      ((o = .ok ∧ ∃ s', Script B db.data (ws.flatMap Version.up) s' ∧ Recordable B db ws ∧ B.commits s' = true) ∨
       (o = .error ∧ ∃ s', Script B db.data (ws.flatMap Version.up) s' ∧ Recordable B db ws ∧
          B.commits s' = false) ∨
       (o = .panic ∧ ((¬ ∃ s', Script B db.data (ws.flatMap Version.up) s') ∨ ¬ Recordable B db ws))) := by
  obtain ⟨fuel, hall⟩ := up_along hn hg ht hop htar hcur hw.path hw.once hne
  obtain ⟨hok, hpan⟩ := upLoop_iff hn hg ht hcur hw.path hw.stored hne
  have h := hall fuel (db, .ok) (.inr (Nat.le_refl _))
  by_cases hl : ∃ t' s', upLoop B d (ws.map Version.name) t₀ db.data = (t', s', .ok)
  · obtain ⟨t', s', hl⟩ := hl
    obtain ⟨h1, h2⟩ := (hok s').1 ⟨t', hl⟩
    rw [hl] at h
    simp only at h
    cases hc : B.commits s' with
    | true => rw [hc] at h; exact ⟨_, _, _, h, .inl ⟨rfl, s', script_iff.2 h1, h2, hc⟩⟩
    | false => rw [hc] at h; exact ⟨_, _, _, h, .inr (.inl ⟨rfl, s', script_iff.2 h1, h2, hc⟩)⟩
  · obtain ⟨t', s', hp⟩ := hpan hl
    rw [hp] at h
    refine ⟨_, _, _, h, .inr (.inr ⟨rfl, ?_⟩)⟩
    by_cases hs : ∃ s', Script B db.data (ws.flatMap Version.up) s'
    · obtain ⟨x, hx⟩ := hs
      refine .inr fun hrec => ?_
      obtain ⟨t'', hl'⟩ := (hok x).2 ⟨script_iff.1 hx, hrec⟩
      exact hl ⟨t'', x, hl'⟩
    · exact .inl hs

/-! ### down -/

theorem down_no_start {B : Behaviour σ} {target : Option String} {db : DB σ} (h : ¬ CanStart B db) :
    (down B target db).2 = .error := by
  obtain ⟨m, hm⟩ := ensure_fails h
  unfold down
  simp only [hm]

/-- What is to be taken back is unique. -/
theorem TakesBack.unique {db : DB σ} (hnd : (db.applied.map Version.name).Nodup) {target : Option String}
    {post post' : List Version} (h : TakesBack db target post) (h' : TakesBack db target post') :
    post = post' := by
  obtain ⟨pre, v, ha, ht⟩ := h
  obtain ⟨pre', v', ha', ht'⟩ := h'
  have hlen : post.length = post'.length → post = post' := by
    intro hl
    rw [ha] at ha'
    have := List.append_inj_right' ha' (by simp [hl])
    simp only [List.cons.injEq] at this
    exact this.2
  have hone : ∀ {x : Version}, post = [x] → pre' = [] ∧ post' = [] → False := by
    rintro x rfl ⟨rfl, rfl⟩
    rw [ha] at ha'
    have := congrArg List.length ha'
    simp at this
  have hone' : ∀ {x : Version}, post' = [x] → pre = [] ∧ post = [] → False := by
    rintro x rfl ⟨rfl, rfl⟩
    rw [ha] at ha'
    have := congrArg List.length ha'
    simp at this
  rcases ht with rfl | ⟨rfl, ht⟩
  · rcases ht' with ht' | ⟨ht', _⟩
    · simp only [Option.some.injEq] at ht'
      apply hlen
      have hi : pre.length = pre'.length := by
        have e1 : (db.applied.map Version.name)[pre.length]? = some v.name := by rw [ha]; simp
        have e2 : (db.applied.map Version.name)[pre'.length]? = some v'.name := by rw [ha']; simp
        rw [ht', ← e2] at e1
        have hl : pre.length < (db.applied.map Version.name).length := by rw [ha]; simp
        exact (List.getElem?_inj hl hnd).1 e1
      have := congrArg List.length (ha.symm.trans ha')
      simp only [List.length_append, List.length_cons] at this
      omega
    · cases ht'
  · rcases ht' with ht' | ⟨_, ht'⟩
    · cases ht'
    · rcases ht with ⟨x, hx⟩ | ht
      · rcases ht' with ⟨x', hx'⟩ | ht'
        · exact hlen (by rw [hx, hx']; rfl)
        · exact (hone hx ht').elim
      · rcases ht' with ⟨x', hx'⟩ | ht'
        · exact (hone' hx' ht).elim
        · rw [ht.2, ht'.2]

/-- `down` with something to aim at. -/
theorem down_takes {B : Behaviour σ} {target : Option String} {db : DB σ} (hg : Good db) {t : VTable}
    (ht : ensureInitialized B db = (.table t, true)) {post : List Version} (h : TakesBack db target post) :
    (((down B target db).2 = .ok ∧ (post = [] ∨
        ∃ s', Script B db.data (post.reverse.flatMap Version.down) s' ∧ B.commits s' = true)) ∨
     ((down B target db).2 = .error ∧ post ≠ [] ∧
        ∃ s', Script B db.data (post.reverse.flatMap Version.down) s' ∧ B.commits s' = false) ∨
     ((down B target db).2 = .panic ∧ ¬ ∃ s', Script B db.data (post.reverse.flatMap Version.down) s')) := by
  obtain ⟨hch, happ, _⟩ := ensure_chain hg ht
  obtain ⟨pre, v, ha, htar⟩ := h
  obtain ⟨a, r, b, hrows, h1, h2, h3⟩ := applied_split happ ha
  subst h2
  have key : (target = some r.version.name ∨ target = none ∧ ∃ x, b = [x]) →
    (((down B target db).2 = .ok ∧ (post = [] ∨
        ∃ s', Script B db.data (post.reverse.flatMap Version.down) s' ∧ B.commits s' = true)) ∨
     ((down B target db).2 = .error ∧ post ≠ [] ∧
        ∃ s', Script B db.data (post.reverse.flatMap Version.down) s' ∧ B.commits s' = false) ∨
     ((down B target db).2 = .panic ∧ ¬ ∃ s', Script B db.data (post.reverse.flatMap Version.down) s')) := by
    intro hb
    rw [down_to ht hch hrows hb, down_flat, h3]
    by_cases hbe : b = []
    · subst hbe
      exact .inl ⟨rfl, .inl h3.symm⟩
    · rw [if_neg hbe]
      have hpe : post ≠ [] := by
        rintro rfl
        exact hbe (by simpa using h3)
      cases he : execAll B db.data (post.reverse.flatMap Version.down) with
      | none =>
        refine .inr (.inr ⟨rfl, ?_⟩)
        rintro ⟨s', hs⟩
        rw [script_iff.1 hs] at he
        cases he
      | some s' =>
        simp only
        cases hc : B.commits s' with
        | true => exact .inl ⟨rfl, .inr ⟨s', script_iff.2 he, hc⟩⟩
        | false => exact .inr (.inl ⟨rfl, hpe, s', script_iff.2 he, hc⟩)
  rcases htar with rfl | ⟨rfl, ⟨x, rfl⟩ | ⟨rfl, rfl⟩⟩
  · exact key (.inl rfl)
  · refine key (.inr ⟨rfl, ?_⟩)
    obtain ⟨y, b', h4, h5, h6⟩ := List.map_eq_cons_iff.1 h3
    exact ⟨y, by rw [h4, List.map_eq_nil_iff.1 h6]⟩
  · rw [List.map_eq_nil_iff.1 h1, List.map_eq_nil_iff.1 h3, List.nil_append] at hrows
    exact .inl ⟨by rw [down_init ht hch hrows], .inl rfl⟩

/-- Without anything to aim at, a version is asked for that is not recorded. -/
theorem unknown_of_nothing {B : Behaviour σ} {target : Option String} {db : DB σ} (hg : Good db) {t : VTable}
    (ht : ensureInitialized B db = (.table t, true)) (h : ¬ ∃ post, TakesBack db target post) :
    ∃ n, target = some n ∧ ∀ v ∈ db.applied, v.name ≠ n := by
  obtain ⟨hch, happ, _⟩ := ensure_chain hg ht
  obtain ⟨q, r, hq⟩ := hch.split_last
  cases target with
  | none =>
    refine absurd ?_ h
    rcases List.eq_nil_or_concat q with rfl | ⟨p, u, rfl⟩
    · exact ⟨[], [], r.version, by rw [← happ, hq]; rfl, .inr ⟨rfl, .inr ⟨rfl, rfl⟩⟩⟩
    · refine ⟨[r.version], p.map Row.version, u.version, ?_, .inr ⟨rfl, .inl ⟨_, rfl⟩⟩⟩
      rw [← happ, hq]
      simp
  | some n =>
    refine ⟨n, rfl, ?_⟩
    rintro x hx rfl
    obtain ⟨a, b, hab⟩ := List.append_of_mem hx
    exact h ⟨b, a, x, hab, .inl rfl⟩

theorem down_nothing {B : Behaviour σ} {target : Option String} {db : DB σ} (hg : Good db) {t : VTable}
    (ht : ensureInitialized B db = (.table t, true)) (h : ¬ ∃ post, TakesBack db target post) :
    (down B target db).2 = .error := by
  obtain ⟨hch, happ, _⟩ := ensure_chain hg ht
  obtain ⟨n, rfl, hn⟩ := unknown_of_nothing hg ht h
  rw [down_unknown ht hch]
  intro x hx
  exact hn _ (by rw [← happ]; exact List.mem_map_of_mem hx)

end Pg
end Podo
