import Verif.Proofs.Disk
import Verif.Proofs.Stderr
import Verif.Props.Commands
import Verif.Props.Initial
import Verif.Props.Life
/-
C101: writes that fail.
-/
namespace Podo
namespace Prog
open Proj
variable {σ : Type}

/-- On a disk on which all is written the commands do what they do otherwise. -/
theorem C101_fine (S : Setting σ) (w : World σ) (cwd : Proj.Path) (a : Args) (w' : World σ) (out : List String)
    (e : Ending) : EndsOn S Disk.fine w cwd a w' out e ↔ Ends S w cwd a w' out e := by
  unfold EndsOn Ends
  simp only [runOn_fine]

/-- C101.  A command that reports success has written all it writes: whatever the disk does, what it leaves and prints
is what it leaves and prints where no write fails. -/
theorem C101_success {S : Setting σ} {D : Disk} {w w' : World σ} {cwd : Proj.Path} {a : Args} {out : List String}
    (h : EndsOn S D w cwd a w' out .success) : Ends S w cwd a w' out .success := by
  obtain ⟨fuel, h⟩ := h
  refine ⟨fuel, ?_⟩
  by_cases ha : a = .init
  · subst ha
    simp only [runOn] at h
    simp only [run]
    split at h
    · next hi => cases h; rw [initOn_exists hi]
    · next hi => cases h; rw [initOn_success hi]
    · cases h
    · cases h
  · rcases runOn_cases h ha with h | ⟨name, q, c, _, _, h, hr⟩
    · exact h
    · rw [hr]
      rcases runHistOn_cases h with h | ⟨h, _⟩
      · exact h
      · cases h

/-- C101.  A command that does not get its files written reports an error — or panics, if it is `init` and cannot write
the configuration file.  It prints what it prints otherwise, and changes no database. -/
theorem C101_reported {S : Setting σ} {D : Disk} {w w' : World σ} {cwd : Proj.Path} {a : Args} {out : List String}
    {e : Ending} (h : EndsOn S D w cwd a w' out e) : Ends S w cwd a w' out e ∨
    ((∃ w₁ e₁, Ends S w cwd a w₁ out e₁) ∧ w'.servers = w.servers ∧
      (e = .error ∨ e = .panic ∧ a = .init ∧ D.config ≠ .done)) := by
  obtain ⟨fuel, h⟩ := h
  by_cases ha : a = .init
  · subst ha
    have hnew : ∀ fs, initOn S.env D w.fs cwd = (fs, .failed) ∨ initOn S.env D w.fs cwd = (fs, .panic) →
        ∃ w₁ e₁, Ends S w cwd .init w₁ [] e₁ := by
      intro fs hi
      cases h0 : discover S.env w.fs cwd with
      | ok p => unfold initOn at hi; rw [h0] at hi; rcases hi with hi | hi <;> cases hi
      | error x =>
        rcases hz : Proj.init S.env w.fs cwd with ⟨fs₁, z⟩
        cases z with
        | exists_ b => rw [init_run h0] at hz; split at hz <;> cases hz
        | done => exact ⟨⟨fs₁, w.servers⟩, .success, 0, by simp only [run, hz]⟩
        | failed => exact ⟨⟨fs₁, w.servers⟩, .error, 0, by simp only [run, hz]⟩
        | panic => exact absurd (by rw [hz]) (init_no_panic S.env w.fs cwd)
    simp only [runOn] at h
    split at h
    · next hi => cases h; exact .inl ⟨fuel, by simp only [run, initOn_exists hi]⟩
    · next hi => cases h; exact .inl ⟨fuel, by simp only [run, initOn_success hi]⟩
    · next hi => cases h; exact .inr ⟨hnew _ (.inl hi), rfl, .inl rfl⟩
    · next hi =>
      cases h
      exact .inr ⟨hnew _ (.inr hi), rfl, .inr ⟨rfl, rfl, ((initOn_panic _ _ _ _).1 (by rw [hi])).2⟩⟩
  · rcases runOn_cases h ha with h | ⟨name, q, c, _, _, h, hr⟩
    · exact .inl ⟨fuel, h⟩
    · rcases runHistOn_cases h with h | ⟨rfl, ⟨w₁, e₁, h1⟩, d, _, rfl⟩
      · exact .inl ⟨fuel, hr.trans h⟩
      · exact .inr ⟨⟨w₁, e₁, fuel, hr.trans h1⟩, rfl, .inl rfl⟩

/-- C101.  What a command other than `init` leaves behind when a write fails is what it can leave behind when it is
killed (C25, C26, C91): only the history directory of its profile is touched, and there only as far as the command
has come. -/
theorem C101_left {S : Setting σ} {D : Disk} {w w' : World σ} {cwd : Proj.Path} {a : Args} {out : List String}
    {e : Ending} (ha : a ≠ .init) (h : EndsOn S D w cwd a w' out e) : Ends S w cwd a w' out e ∨
    (e = .error ∧ ∃ name q c d, ProfileAt S.env w.fs cwd name q ∧ WorksOn S w q name a c ∧
      Dies c (w.fs.history q.history) d ∧
      w' = ⟨{ w.fs with history := update w.fs.history q.history d }, w.servers⟩) := by
  obtain ⟨fuel, h⟩ := h
  rcases runOn_cases h ha with h | ⟨name, q, c, hq, hw, h, hr⟩
  · exact .inl ⟨fuel, h⟩
  · rcases runHistOn_cases h with h | ⟨rfl, _, d, hd, rfl⟩
    · exact .inl ⟨fuel, hr.trans h⟩
    · exact .inr ⟨rfl, name, q, c, d, hq, hw, hd, rfl⟩

/-- C101, conversely: whatever a command can leave behind when it is killed, it leaves behind on some disk. -/
theorem C101_any_crash {S : Setting σ} {w : World σ} {cwd : Proj.Path} {name : String} {q : Profile}
    (hq : ProfileAt S.env w.fs cwd name q) {a : Args} {c : HistCmd} (hw : WorksOn S w q name a c) {d : HDir}
    (hd : Dies c (w.fs.history q.history) d) :
    ∃ D out e, EndsOn S D w cwd a ⟨{ w.fs with history := update w.fs.history q.history d }, w.servers⟩ out e := by
  obtain ⟨fuel, vs, hp, hc⟩ := hd
  obtain ⟨f, hf⟩ := crash_disk hc
  exact runOn_crash hq hw hp hf

/-- C101.  What `init` leaves behind when a write fails is what it can leave behind when it is killed (C96); it panics if
and only if there is no project yet and the configuration file cannot be written. -/
theorem C101_init_left {S : Setting σ} {D : Disk} {w w' : World σ} {cwd : Proj.Path} {out : List String} {e : Ending}
    (h : EndsOn S D w cwd .init w' out e) : InitDies S.env w.fs cwd w'.fs ∧ w'.servers = w.servers ∧
    (e = .panic ↔ (∃ x, discover S.env w.fs cwd = .error x) ∧ D.config ≠ .done) := by
  obtain ⟨fuel, h⟩ := h
  simp only [runOn] at h
  have hd := initOn_dies S.env D w.fs cwd
  have hp := initOn_panic S.env D w.fs cwd
  split at h <;> next hi =>
    cases h
    rw [hi] at hd hp
    refine ⟨hd, rfl, ?_⟩
    rw [← hp]
    simp

/-- C101.  So when `init` has failed in a directory that is in no project, deleting the configuration file, if there is
one, and running `init` again where nothing fails leaves exactly what it leaves otherwise. -/
theorem C101_init_again {S : Setting σ} {D : Disk} {w w' : World σ} {cwd : Proj.Path} {out : List String} {e : Ending}
    (hnew : ∀ d, Above d cwd → w.fs.config d = none)
    (hd : (w.fs.history (cwd ++ ["database", "history"])).NodupKeys)
    (h : EndsOn S D w cwd .init w' out e) (w₂ : World σ) (out₂ : List String) (e₂ : Ending) :
    EndsOn S Disk.fine ⟨w'.fs.withoutConfig cwd, w'.servers⟩ cwd .init w₂ out₂ e₂ ↔ Ends S w cwd .init w₂ out₂ e₂ := by
  obtain ⟨h1, h2, _⟩ := C101_init_left h
  rw [C101_fine]
  have := (C96_init_again hnew hd h1).1
  unfold Ends
  simp only [run, this, h2]

/-- C101, and the life of a machine goes on: a command that fails because of the disk is, when the history has been put
in order, one of the things that may happen in C91 (and so in all that is proved of such lives). -/
theorem C101_life {B : Pg.Behaviour σ} {ok : Makes → LocalTime × String → Prop} {log : Makes} {S : Setting σ}
    (hB : S.B = B) {t : LocalTime} (ht : S.now = t.text) {D : Disk} {w w' : World σ} {cwd : Proj.Path} {a : Args}
    {out : List String} {e : Ending} (ha : a ≠ .init) (hal : Allowed ok S w cwd log t a)
    (h : EndsOn S D w cwd a w' out e) : Happens B ok log w (noted t log a) w' ∨
    ∃ q : Profile, ∀ d', Mended (w'.fs.history q.history) d' →
      Happens B ok log w (noted t log a)
        ⟨{ w'.fs with history := update w'.fs.history q.history d' }, w'.servers⟩ := by
  subst hB
  rcases C101_left ha h with h | ⟨_, name, q, c, d, hq, hw, hd, rfl⟩
  · exact .inl (happens_there ht hal h)
  · refine .inr ⟨q, fun d' hm => ?_⟩
    dsimp only at hm ⊢
    rw [update_self] at hm
    rw [update_update]
    have hn : noted t log a = notedDead t log c := by cases hw <;> rfl
    rw [hn]
    refine .interrupted ?_ hd hm
    intro stamp label he
    cases hw with
    | stage => cases he
    | reset => cases he
    | make l => cases he; exact ⟨ht, hal⟩

/-- C101: a failed write can do harm.  In every project there is a disk on which `reset` reports an error and leaves a
history that cannot be opened any more. -/
theorem C101_reset_false {S : Setting σ} {w : World σ} {cwd : Proj.Path} {name : String} {q : Profile}
    (hq : ProfileAt S.env w.fs cwd name q) (hr : Reachable (w.fs.history q.history)) :
    ∃ D w' out, EndsOn S D w cwd (.reset name) w' out .error ∧ FailsToOpen (w'.fs.history q.history) := by
  obtain ⟨fuel, ws, d, hp, hc, hf⟩ := C26_crash_false hr
  obtain ⟨D, w', out, h1, rfl⟩ := runOn_breaks hq .reset hr (fun _ _ h => by cases h) hp hc hf
  exact ⟨D, w', out, h1, hf⟩

/-- C101: and in every project with something staged there is a disk on which `make` reports an error and leaves a
history that cannot be opened any more although each of its files can be read: the new version is there and the
staged one still is. -/
theorem C101_make_false {S : Setting σ} {w : World σ} {cwd : Proj.Path} {name : String} {q : Profile}
    (hq : ProfileAt S.env w.fs cwd name q) (hr : Reachable (w.fs.history q.history)) {label : Option String}
    {n : String} (hn : n = S.now ++ "-" ++ label.getD "auto") (hf : FreshName (w.fs.history q.history) n)
    (hsl : '/' ∉ n.toList) {st : Version} (hst : Stored (w.fs.history q.history) "stage" st)
    (hne : st.changes ≠ [] ∨ st.up ≠ [] ∨ st.down ≠ []) :
    ∃ D w' out, EndsOn S D w cwd (.make name label) w' out .error ∧ FailsToOpen (w'.fs.history q.history) ∧
      AllReadable (w'.fs.history q.history) := by
  obtain ⟨fuel, ws, d, hp, hc, hfo, hrd⟩ := C25_crash_false hr hn hf hsl hst hne
  obtain ⟨D, w', out, h1, rfl⟩ := runOn_breaks hq (.make label) hr
    (fun s l h => by cases h; subst hn; exact hf) hp hc hfo
  exact ⟨D, w', out, h1, hfo, hrd⟩

/-- `podo make` where the second file is refused: the version is there, the staged one is not emptied, an error is
reported and the history no longer opens. -/
example : ∃ d out,
    EndsOn progSetting ⟨.done, true, true, fun | 0 => .done | _ => .refused, .done⟩
      ⟨progFs demoDir [], fun _ => none⟩ ["w"] (.make "database" (some "x"))
      ⟨{ progFs demoDir [] with history := update (progFs demoDir []).history progProfile.history d },
        fun _ => none⟩
      out .error ∧ d.length = 4 ∧ (HDir.fromDir 9 d).map (·.toOption.isNone) = some true := by
  have hq : ProfileAt progSetting.env (progFs demoDir []) ["w"] "database" progProfile := progFs_profile _ _
  have hp : (HistCmd.make progSetting.now (some "x")).plan 9 ((progFs demoDir []).history progProfile.history) =
      some (.ok [{ demoStage with name := progSetting.now ++ "-x" },
        Version.newStage (progSetting.now ++ "-x")]) := rfl
  exact ⟨_, _, ⟨9, runOn_plan (w := ⟨progFs demoDir [], fun _ => none⟩)
    (D := ⟨.done, true, true, fun | 0 => .done | _ => .refused, .done⟩) hq (.make (some "x")) hp rfl⟩,
    by decide +kernel, by decide +kernel⟩

/-- `podo init` where the configuration file is refused: it panics and leaves nothing. -/
example : EndsOn progSetting ⟨.refused, true, true, fun _ => .done, .done⟩ (lifeWorld false [] []) ["w"] .init
    (lifeWorld false [] []) [] .panic := by
  obtain ⟨e, he⟩ := discover_fails (env := progSetting.env) (fs := (lifeWorld false [] []).fs) (cwd := ["w"])
      (fun d h _ => rfl) (by intro y h; cases h)
  refine ⟨0, ?_⟩
  simp only [runOn, initOn, he]

theorem init_failed {S : Setting σ} {D : Disk} {w : World σ} {cwd : Proj.Path} {fs : Fs}
    (h : initOn S.env D w.fs cwd = (fs, .failed)) : EndsOn S D w cwd .init ⟨fs, w.servers⟩ [] .error :=
  ⟨0, by simp only [runOn, h]⟩

/-- And where the second version file comes to be half written it reports an error. -/
example : ∃ w', EndsOn progSetting ⟨.done, true, true, fun | 0 => .done | _ => .torn, .done⟩ (lifeWorld false [] []) ["w"]
    .init w' [] .error ∧ ∀ v, ¬ Stored (w'.fs.history (["w"] ++ ["database", "history"])) "stage" v := by
  obtain ⟨e, he⟩ := discover_fails (env := progSetting.env) (fs := (lifeWorld false [] []).fs) (cwd := ["w"])
      (fun d h _ => rfl) (by intro y h; cases h)
  have h : initOn progSetting.env ⟨.done, true, true, fun | 0 => .done | _ => .torn, .done⟩
      (lifeWorld false [] []).fs ["w"] =
      ({ (lifeWorld false [] []).fs with
        config := update (lifeWorld false [] []).fs.config ["w"] (some (some baseProject)),
        history := update (lifeWorld false [] []).fs.history (["w"] ++ ["database", "history"])
          [("init.yaml", .file (some Version.newInit)), ("stage.yaml", .file none)] }, .failed) := by
    simp only [initOn, he]
    rfl
  refine ⟨_, init_failed h, ?_⟩
  intro v hv
  dsimp only at hv
  rw [update_self] at hv
  cases hv

end Prog
end Podo
