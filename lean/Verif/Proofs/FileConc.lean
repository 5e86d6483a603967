import Verif.Spec.FileConc
import Verif.Proofs.Commands
/-
Processes at work on one directory of version files.
-/
namespace Podo

/-- Two maps that hold the same are listings of each other. -/
theorem amap_perm_of_get {α : Type} : ∀ {m n : AMap α}, m.NodupKeys → n.NodupKeys →
    (∀ k, AMap.get? m k = AMap.get? n k) → m.Perm n
  | [], n, _, hn, h => by
    cases n with
    | nil => exact .nil
    | cons q n => have := h q.1; simp at this
  | p :: m, n, hm, hn, h => by
    have hp : p ∈ n := AMap.mem_of_get? (k := p.1) (v := p.2) (by rw [← h]; simp)
    obtain ⟨l₁, l₂, rfl⟩ := List.append_of_mem hp
    have hperm : (l₁ ++ p :: l₂).Perm (p :: (l₁ ++ l₂)) := List.perm_middle
    have hn' : AMap.NodupKeys (p :: (l₁ ++ l₂)) := (AMap.nodupKeys_perm hperm).1 hn
    refine .trans (.cons p ?_) hperm.symm
    rw [AMap.nodupKeys_cons] at hm hn'
    refine amap_perm_of_get hm.2 hn'.2 fun k => ?_
    have hk := h k
    rw [AMap.get?_perm hn hperm k, AMap.get?_cons, AMap.get?_cons] at hk
    by_cases e : p.1 = k
    · rw [AMap.get?_eq_none_iff.2 (e ▸ hm.1), AMap.get?_eq_none_iff.2 (e ▸ hn'.1)]
    · rwa [if_neg e, if_neg e] at hk

theorem IsHistory.opens_iff {d : HDir} {vs : List Version} {st : Version} (h : IsHistory d vs st)
    {cv : String} : Opens d cv ↔ cv = ((vs.map Version.name).getLast?).getD "init" := by
  obtain ⟨nm, _, hf⟩ := h.fromDir
  constructor
  · rintro ⟨k, nm', hk⟩
    have := fromDir_mono (Nat.le_max_left k (vs.length + 2)) hk
    rw [hf _ (by omega)] at this
    cases this
    rfl
  · rintro rfl
    exact ⟨vs.length + 2, nm, hf _ (by omega)⟩

namespace FConc

@[simp] theorem put_dir (s : State) (i : Nat) (p : Option Phase) : (s.put i p).dir = s.dir := rfl

theorem put_procs (s : State) (i j : Nat) (p : Option Phase) :
    (s.put i p).procs j = if j = i then p else s.procs j := rfl

theorem put_put (s : State) (i : Nat) (p q : Option Phase) : (s.put i p).put i q = s.put i q := by
  unfold State.put
  congr 1
  funext j
  simp only
  split <;> rfl

theorem put_idle {d : HDir} (i : Nat) : (idle d).put i none = idle d := by
  unfold State.put idle
  congr 1
  funext j
  simp only
  split <;> rfl

theorem Run.trans {P : HistCmd → Prop} {s t u : State} (h : Run P s t) (h' : Run P t u) : Run P s u := by
  induction h' with
  | refl => exact h
  | tail _ hs ih => exact .tail ih hs

theorem write_procs (s : State) (i j : Nat) (p : Phase) (n : String) (e : Option Version) :
    (s.write i p n e).procs j = if j = i then some p else (s.procs j).map (Phase.disturb n) := rfl

theorem write_get {s : State} {n : String} (hi : (s.dir.get? (n ++ ".yaml")).isSome) (i : Nat) (p : Phase)
    (e : Option Version) (f : String) :
    (s.write i p n e).dir.get? f = if f = n ++ ".yaml" then some (.file e) else s.dir.get? f := by
  unfold State.write
  exact AMap.get?_set _ _ _ _ hi

theorem set_set_of_nodup {α : Type} : ∀ {m : AMap α} {k : String} {a b : α},
    (AMap.set (AMap.set m k a) k b) = AMap.set m k b := by
  intro m k a b
  unfold AMap.set
  rw [List.map_map]
  apply List.map_congr_left
  intro x _
  by_cases h : x.1 = k <;> simp [h]

theorem save_set {d d' : HDir} {v : Version} (hd : d.NodupKeys) (h : d.save v = some d') :
    AMap.set d' (v.name ++ ".yaml") (.file (some v)) = d' := by
  have hd' : d'.NodupKeys := save_nodup hd h
  unfold AMap.set
  conv => rhs; rw [← List.map_id d']
  apply List.map_congr_left
  intro x hx
  have hg : AMap.get? d' x.1 = some x.2 := AMap.get?_of_mem hd' hx
  rw [save_get h] at hg
  by_cases e : x.1 = v.name ++ ".yaml"
  · rw [if_pos e] at hg
    injection hg with hg
    simp only [e, if_pos, id]
    rw [hg, ← e]
  · simp [e]

/-- A process saves a version without anyone else in between. -/
theorem run_save {P : HistCmd → Prop} {s : State} {i : Nat} {v : Version} {vs : List Version} {d : HDir}
    (h : s.procs i = some (.saving (v :: vs))) (hn : s.dir.NodupKeys) (hd : s.dir.save v = some d)
    (ho : ∀ j, j ≠ i → ¬ s.Writing j) : Run P s { s.put i (some (.saving vs)) with dir := d } := by
  have r := (Run.tail (.refl _) (Step.empty (P := P) h hd)).tail
    (.written (by rw [write_procs, if_pos rfl]))
  have e : State.write (State.write { s with dir := d } i (.writing v vs true) v.name none) i (.saving vs)
      v.name (some v) = { s.put i (some (.saving vs)) with dir := d } := by
    unfold State.write State.put
    simp only [set_set_of_nodup, save_set hn hd]
    congr 1
    funext j
    by_cases hj : j = i
    · simp only [hj, if_pos]
    · simp only [if_neg hj]
      cases hq : s.procs j with
      | none => rfl
      | some q =>
        cases q with
        | writing w ws a => exact absurd ⟨w, ws, a, hq⟩ (ho j hj)
        | _ => rfl
  rw [e] at r
  exact r

/-- A process that saves without anyone else in between. -/
theorem run_saving {P : HistCmd → Prop} : ∀ {vs : List Version} {d d' : HDir}, d.NodupKeys →
    d.saveAll vs = (d', true) → Run P ((idle d).put 0 (some (.saving vs))) (idle d')
  | [], d, d', _, h => by
    simp only [HDir.saveAll, Prod.mk.injEq, and_true] at h
    subst h
    have := Run.tail (.refl _) (Step.leave (P := P) (s := (idle d).put 0 (some (.saving []))) 0)
    rwa [put_put, put_idle] at this
  | v :: vs, d, d', hn, h => by
    unfold HDir.saveAll at h
    cases hd : d.save v with
    | none => rw [hd] at h; cases h
    | some d₁ =>
      rw [hd] at h
      have r := run_save (P := P) (s := (idle d).put 0 (some (.saving (v :: vs)))) (i := 0) rfl hn hd (by
        rintro j hj ⟨w, ws, a, hw⟩
        rw [put_procs, if_neg hj] at hw
        cases hw)
      rw [put_put] at r
      exact r.trans (run_saving (save_nodup hn hd) h)

theorem run_scan {P : HistCmd → Prop} {s : State} {i : Nat} {c : HistCmd} :
    ∀ {l : List (String × Entry)} {nm nm' : AMap String}, HDir.scan s.dir l nm = .ok nm' →
    Run P (s.put i (some (.scanning c l nm))) (s.put i (some (.scanning c [] nm')))
  | [], nm, nm', h => by
    simp only [HDir.scan, Except.ok.injEq] at h
    subst h
    exact .refl _
  | (f, e) :: es, nm, nm', h => by
    have one : ∀ nm₁, HDir.scan s.dir [(f, e)] nm = .ok nm₁ → HDir.scan s.dir es nm₁ = .ok nm' →
        Run P (s.put i (some (.scanning c ((f, e) :: es) nm))) (s.put i (some (.scanning c [] nm'))) := by
      intro nm₁ h1 h2
      have r := Run.tail (.refl _) (Step.scan (P := P) (s := s.put i (some (.scanning c ((f, e) :: es) nm)))
        (i := i) (by rw [put_procs, if_pos rfl]) h1)
      rw [put_put] at r
      exact r.trans (run_scan h2)
    unfold HDir.scan at h
    split at h
    · next hs => exact one nm (by unfold HDir.scan; rw [if_pos hs]; rfl) h
    · next hs =>
      split at h
      · cases h
      · next v hv =>
        split at h
        · next hp => exact one nm (by unfold HDir.scan; rw [if_neg hs, hv]; simp only [hp]; rfl) h
        · next p hp =>
          split at h
          · cases h
          · next hg =>
            exact one _ (by unfold HDir.scan; rw [if_neg hs, hv]; simp only [hp, hg]; rfl) h

/-- A process opens the history without anyone else in between. -/
theorem run_open {P : HistCmd → Prop} {s : State} {i : Nat} {c : HistCmd}
    (hi : s.procs i = some (.started c)) (fuel : Nat) {o : HDir.Opened}
    (h : HDir.fromDir fuel s.dir = some (.ok o)) : Run P s (s.put i (some (.opened c))) := by
  have r : Run P s _ := .tail (.refl _) (.list hi)
  unfold HDir.fromDir at h
  cases hs : HDir.scan s.dir s.dir [] with
  | error e => rw [hs] at h; cases h
  | ok nm =>
    rw [hs] at h
    simp only at h
    cases hw : HDir.walk nm fuel "init" Version.INIT with
    | none => rw [hw] at h; cases h
    | some cv =>
      have r := (r.trans (run_scan hs)).tail (.opens (i := i) (by rw [put_procs, if_pos rfl]) hw)
      rwa [put_put] at r

theorem run_range {P : HistCmd → Prop} {s : State} {i : Nat} {t : Database} {to : String} :
    ∀ {fuel : Nat} {curr : String} {acc ns : List String},
    HDir.rangeLoop s.dir Version.INIT to fuel curr acc = some (.ok ns) →
    Run P (s.put i (some (.ranging t curr acc))) (s.put i (some (.ranged t ns)))
  | 0, _, _, _, h => by cases h
  | fuel + 1, curr, acc, ns, h => by
    unfold HDir.rangeLoop at h
    split at h
    · cases h
    · next v hv =>
      split at h
      · next hc =>
        subst hc
        injection h with h
        injection h with h
        subst h
        have r := Run.tail (.refl _) (Step.ranged (P := P) (s := s.put i (some (.ranging t Version.INIT acc)))
          (i := i) (by rw [put_procs, if_pos rfl]) hv)
        rwa [put_put] at r
      · next hc =>
        split at h
        · next p hp =>
          have r := Run.tail (.refl _) (Step.range (P := P) (s := s.put i (some (.ranging t curr acc)))
            (i := i) (by rw [put_procs, if_pos rfl]) hv hc hp)
          rw [put_put] at r
          exact r.trans (run_range h)
        · cases h

theorem run_replay {P : HistCmd → Prop} {s : State} {i : Nat} {t : Database} : ∀ {ns : List String}
    {db db' : Database}, replayVersions s.dir ns db = .ok db' →
    Run P (s.put i (some (.replaying t ns db))) (s.put i (some (.replaying t [] db')))
  | [], db, db', h => by
    simp only [replayVersions, Except.ok.injEq] at h
    subst h
    exact .refl _
  | n :: ns, db, db', h => by
    unfold replayVersions at h
    split at h
    · cases h
    · next v hv =>
      split at h
      · cases h
      · next db₁ ha =>
        have r := Run.tail (.refl _) (Step.replay (P := P) (s := s.put i (some (.replaying t (n :: ns) db)))
          (i := i) (by rw [put_procs, if_pos rfl]) hv ha)
        rw [put_put] at r
        exact r.trans (run_replay h)

/-- A process calculates the snapshot of the stage without anyone else in between. -/
theorem run_compare {P : HistCmd → Prop} {s : State} {i : Nat} {t : Database}
    (hi : s.procs i = some (.opened (.stage (.ok t)))) (fuel : Nat) {source : Database}
    (h : calculateSnapshot fuel s.dir Version.STAGE = some (.ok source)) :
    Run P s (s.put i (some (.replaying t [] source))) := by
  have r : Run P s _ := .tail (.refl _) (.ranges hi)
  unfold calculateSnapshot at h
  split at h
  · cases h
  · cases h
  · next ns hns =>
    have r := r.trans (run_range hns)
    split at h
    · cases h
    · next v hv =>
      split at h
      · cases h
      · next db hdb =>
        have r := r.tail (.base (i := i) (by rw [put_procs, if_pos rfl]) hv hdb)
        rw [put_put] at r
        injection h with h
        exact r.trans (run_replay h)

theorem Step.mono {P Q : HistCmd → Prop} (hPQ : ∀ c, P c → Q c) {s t : State} (h : Step P s t) :
    Step Q s t := by
  cases h with
  | start i c hp hn => exact .start i c (hPQ c hp) hn
  | leave i => exact .leave i
  | list h1 => exact .list h1
  | scan h1 h2 => exact .scan h1 h2
  | opens h1 h2 => exact .opens h1 h2
  | ranges h1 => exact .ranges h1
  | range h1 h2 h3 h4 => exact .range h1 h2 h3 h4
  | ranged h1 h2 => exact .ranged h1 h2
  | base h1 h2 h3 => exact .base h1 h2 h3
  | replay h1 h2 h3 => exact .replay h1 h2 h3
  | stage h1 h2 h3 => exact .stage h1 h2 h3
  | make h1 h2 => exact .make h1 h2
  | reset h1 h2 => exact .reset h1 h2
  | empty h1 h2 => exact .empty h1 h2
  | piece h1 h2 => exact .piece h1 h2
  | written h1 => exact .written h1
  | mixed h1 h2 => exact .mixed h1 h2
  | relist h1 => exact .relist h1

theorem Run.mono {P Q : HistCmd → Prop} (hPQ : ∀ c, P c → Q c) {s t : State} (h : Run P s t) :
    Run Q s t := by
  induction h with
  | refl => exact .refl _
  | tail _ hs ih => exact .tail ih (hs.mono hPQ)

theorem OrderlyRun.run {P : HistCmd → Prop} {s t : State} (h : OrderlyRun P s t) : Run P s t := by
  induction h with
  | refl => exact .refl _
  | tail _ hs _ ih => exact .tail ih hs

/-! ### What the processes may save -/

/-- A version that commands may save: the stage, or one of a name given to `make`. -/
def MaySave (P : HistCmd → Prop) (v : Version) : Prop :=
  v.name = "stage" ∨ ∃ stamp label, P (.make stamp label) ∧ v.name = madeName stamp label

/-- What holds throughout: every command is allowed, and so is what is still to save. -/
def Phase.Ok (P : HistCmd → Prop) : Phase → Prop
  | .started c => P c
  | .scanning c _ _ => P c
  | .opened c => P c
  | .saving vs => ∀ v ∈ vs, MaySave P v
  | .writing v vs _ => ∀ w ∈ v :: vs, MaySave P w
  | _ => True

/-- What a process that is saving has yet to save. -/
def Phase.unsaved : Phase → List Version
  | .saving vs => vs
  | .writing v vs _ => v :: vs
  | _ => []

theorem disturb_ok {P : HistCmd → Prop} {n : String} {p : Phase} (h : p.Ok P) : (p.disturb n).Ok P := by
  cases p <;> exact h

theorem disturb_unsaved {n : String} {p : Phase} : (p.disturb n).unsaved = p.unsaved := by
  cases p <;> rfl

theorem procs_put {s : State} {i : Nat} {p : Option Phase} {Q : Phase → Prop}
    (h : ∀ i p, s.procs i = some p → Q p) (hp : ∀ x, p = some x → Q x) :
    ∀ j x, (s.put i p).procs j = some x → Q x := by
  intro j x hx
  rw [put_procs] at hx
  split at hx
  · exact hp x hx
  · exact h j x hx

theorem procs_write {s : State} {i : Nat} {p : Phase} {n : String} {e : Option Version} {Q : Phase → Prop}
    (h : ∀ i p, s.procs i = some p → Q p) (hp : Q p) (hd : ∀ q, Q q → Q (q.disturb n)) :
    ∀ j x, (s.write i p n e).procs j = some x → Q x := by
  intro j x hx
  rw [write_procs] at hx
  split at hx
  · cases hx; exact hp
  · cases hj : s.procs j with
    | none => rw [hj] at hx; cases hx
    | some q =>
      rw [hj] at hx
      cases hx
      exact hd q (h j q hj)

structure Inv (P : HistCmd → Prop) (d : HDir) (s : State) : Prop where
  nodup : s.dir.NodupKeys
  stage : ∀ v, s.dir.getVersion "stage" = .ok v → v.name = "stage"
  procs : ∀ i p, s.procs i = some p → p.Ok P
  there : ∀ i v vs a, s.procs i = some (.writing v vs a) → (s.dir.get? (v.name ++ ".yaml")).isSome
  files : ∀ f, f ≠ "stage.yaml" → (∀ stamp label, P (.make stamp label) →
    f ≠ madeName stamp label ++ ".yaml") → s.dir.get? f = d.get? f

theorem Inv.put {P : HistCmd → Prop} {d : HDir} {s : State} (h : Inv P d s) {i : Nat} {p : Option Phase}
    (hp : ∀ x, p = some x → x.Ok P ∧ ∀ v vs a, x ≠ .writing v vs a) : Inv P d (s.put i p) where
  nodup := h.nodup
  stage := h.stage
  procs := procs_put h.procs fun x hx => (hp x hx).1
  there := by
    intro j v vs a hj
    rw [put_procs] at hj
    split at hj
    · exact absurd rfl ((hp _ hj).2 v vs a)
    · exact h.there j v vs a hj
  files := h.files

theorem Inv.write {P : HistCmd → Prop} {d : HDir} {s : State} (h : Inv P d s) {i : Nat} {p : Phase}
    {v : Version} {e : Option Version} (hv : MaySave P v)
    (hi : (s.dir.get? (v.name ++ ".yaml")).isSome) (he : ∀ w, e = some w → w.name = v.name)
    (hp : p.Ok P) (hw : ∀ w vs a, p = .writing w vs a → w = v) : Inv P d (s.write i p v.name e) := by
  have hk := kept_set h.nodup h.stage hi he
  refine ⟨hk.nodup, hk.stage, procs_write h.procs hp (fun _ => disturb_ok), ?_, fun f hf hm => ?_⟩
  · intro j w vs a hj
    have hthere : (s.dir.get? (w.name ++ ".yaml")).isSome := by
      rw [write_procs] at hj
      split at hj
      · injection hj with hj
        rw [hw w vs a hj]; exact hi
      · cases hq : s.procs j with
        | none => rw [hq] at hj; cases hj
        | some q =>
          rw [hq] at hj
          cases q with
          | writing w' vs' a' =>
            injection hj with hj
            injection hj with e1 e2 e3
            subst e1
            exact h.there j _ _ _ hq
          | _ => injection hj with hj; cases hj
    rw [write_get hi]
    split
    · rfl
    · exact hthere
  · rw [write_get hi]
    have : f ≠ v.name ++ ".yaml" := by
      rintro rfl
      rcases hv with hv | ⟨stamp, label, hp, hv⟩
      · exact hf (by rw [hv]; rfl)
      · exact hm stamp label hp (by rw [hv])
    rw [if_neg this, h.files f hf hm]

theorem Inv.step {P : HistCmd → Prop} {d : HDir} {s t : State} (h : Inv P d s) (hs : Step P s t) :
    Inv P d t := by
  cases hs with
  | start i c hp _ => exact h.put fun x hx => by cases hx; exact ⟨hp, by simp⟩
  | leave i => exact h.put fun x hx => by cases hx
  | list h1 => exact h.put fun x hx => by cases hx; exact ⟨(h.procs _ _ h1 : P _), by simp⟩
  | scan h1 _ => exact h.put fun x hx => by cases hx; exact ⟨(h.procs _ _ h1 : P _), by simp⟩
  | opens h1 _ => exact h.put fun x hx => by cases hx; exact ⟨(h.procs _ _ h1 : P _), by simp⟩
  | ranges h1 => exact h.put fun x hx => by cases hx; exact ⟨trivial, by simp⟩
  | range h1 => exact h.put fun x hx => by cases hx; exact ⟨trivial, by simp⟩
  | ranged h1 => exact h.put fun x hx => by cases hx; exact ⟨trivial, by simp⟩
  | base h1 => exact h.put fun x hx => by cases hx; exact ⟨trivial, by simp⟩
  | replay h1 => exact h.put fun x hx => by cases hx; exact ⟨trivial, by simp⟩
  | stage h1 h2 h3 =>
    refine h.put fun x hx => ?_
    cases hx
    refine ⟨fun v hv => ?_, by simp⟩
    simp only [List.mem_singleton] at hv
    subst hv
    exact .inl ((stageVersion_name _ _ _ _ h3).trans (h.stage _ h2))
  | @make i stamp label v h1 h2 =>
    refine h.put fun x hx => ?_
    cases hx
    refine ⟨fun w hw => ?_, by simp⟩
    split at hw
    · cases hw
    · simp only [List.mem_cons, List.not_mem_nil, or_false] at hw
      rcases hw with rfl | rfl
      · exact .inr ⟨stamp, label, h.procs _ _ h1, rfl⟩
      · exact .inl rfl
  | @reset i v h1 h2 =>
    refine h.put fun x hx => ?_
    cases hx
    refine ⟨fun w hw => ?_, by simp⟩
    simp only [List.mem_singleton] at hw
    subst hw
    exact .inl (show v.name = "stage" from h.stage _ h2)
  | @empty i v vs d' h1 h2 =>
    have hk := kept_save h.nodup h.stage h2
    have ho : (Phase.saving (v :: vs)).Ok P := h.procs _ _ h1
    have h' : Inv P d { s with dir := d' } := by
      refine ⟨hk.nodup, hk.stage, h.procs, fun j w ws a hj => ?_, fun f hf hm => ?_⟩
      · show (d'.get? _).isSome
        rw [save_get h2]
        split
        · rfl
        · exact h.there j w ws a hj
      · refine (hk.files f ?_).trans (h.files f hf hm)
        simp only [List.mem_singleton]
        rintro rfl
        rcases ho v (by simp) with hv | ⟨stamp, label, hp, hv⟩
        · exact hf (by rw [hv]; rfl)
        · exact hm stamp label hp (by rw [hv])
    refine h'.write (ho v (by simp)) ?_ (fun w hw => by cases hw) ho (fun w ws a hw => ?_)
    · show (d'.get? _).isSome
      rw [save_get h2, if_pos rfl]; rfl
    · injection hw with hw
      exact hw.symm
  | @piece i v vs a e h1 h2 =>
    have ho : (Phase.writing v vs a).Ok P := h.procs _ _ h1
    refine h.write (ho v (by simp)) (h.there _ _ _ _ h1) (fun w hw => (h2 w hw).1) ho (fun w ws a hw => ?_)
    injection hw with hw
    exact hw.symm
  | @written i v vs h1 =>
    have ho : (Phase.writing v vs true).Ok P := h.procs _ _ h1
    exact h.write (ho v (by simp)) (h.there _ _ _ _ h1) (fun w hw => by cases hw; rfl)
      (fun w hw => ho w (List.mem_cons_of_mem _ hw)) (fun w ws a hw => by cases hw)
  | @mixed i v vs e h1 h2 =>
    have ho : (Phase.writing v vs false).Ok P := h.procs _ _ h1
    exact h.write (ho v (by simp)) (h.there _ _ _ _ h1) (fun w hw => (h2 w hw).1)
      (fun w hw => ho w (List.mem_cons_of_mem _ hw)) (fun w ws a hw => by cases hw)
  | @relist d' hp =>
    have hg : ∀ f, AMap.get? s.dir f = AMap.get? d' f := fun f => AMap.get?_perm h.nodup hp f
    refine ⟨(AMap.nodupKeys_perm hp).1 h.nodup, fun v hv => h.stage v ?_, h.procs, fun j v vs a hj => ?_,
      fun f hf hm => ?_⟩
    · unfold HDir.getVersion at hv ⊢
      rw [hg]; exact hv
    · show (d'.get? _).isSome
      rw [← hg]; exact h.there j v vs a hj
    · rw [← h.files f hf hm, hg]

theorem Inv.run {P : HistCmd → Prop} {d : HDir} {s t : State} (h : Inv P d s) (hs : Run P s t) :
    Inv P d t := by
  induction hs with
  | refl => exact h
  | tail _ hst ih => exact ih.step hst

theorem inv_idle {P : HistCmd → Prop} {d : HDir} {vs : List Version} {st : Version}
    (h : IsHistory d vs st) : Inv P d (idle d) where
  nodup := h.nodup
  stage v hv := by
    change d.getVersion "stage" = .ok v at hv
    rw [Podo.stored_iff.1 h.stored_stage] at hv
    cases hv
    exact h.stage
  procs i p hp := by cases hp
  there i v vs a hp := by cases hp
  files f _ _ := rfl

/-! ### Without `make` -/

/-- The stage, where it can be read, has its old predecessor, and so has whatever is still to save. -/
structure StageInv (pre : Option String) (s : State) : Prop where
  file : ∃ e, s.dir.get? "stage.yaml" = some (.file e)
  stage : ∀ v, Stored s.dir "stage" v → v.previous = pre
  procs : ∀ i p, s.procs i = some p → ∀ v ∈ p.unsaved, v.previous = pre

theorem StageInv.put {pre : Option String} {s : State} (h : StageInv pre s) {i : Nat} {p : Option Phase}
    (hp : ∀ x, p = some x → ∀ v ∈ x.unsaved, v.previous = pre) : StageInv pre (s.put i p) :=
  ⟨h.file, h.stage, procs_put (Q := fun x => ∀ v ∈ x.unsaved, v.previous = pre) h.procs hp⟩

theorem StageInv.write {pre : Option String} {s : State} (h : StageInv pre s) {i : Nat} {p : Phase}
    {e : Option Version} (he : ∀ w, e = some w → w.previous = pre)
    (hp : ∀ v ∈ p.unsaved, v.previous = pre) : StageInv pre (s.write i p "stage" e) := by
  have hi : (s.dir.get? ("stage" ++ ".yaml")).isSome := by
    obtain ⟨e, he⟩ := h.file
    rw [show "stage" ++ ".yaml" = "stage.yaml" from rfl, he]; rfl
  refine ⟨⟨e, ?_⟩, fun v hv => ?_, procs_write (Q := fun x => ∀ v ∈ x.unsaved, v.previous = pre) h.procs hp
    (fun q hq => by rw [disturb_unsaved]; exact hq)⟩
  · rw [write_get hi]
    exact if_pos rfl
  · unfold Stored at hv
    rw [write_get hi, if_pos rfl] at hv
    injection hv with hv
    injection hv with hv
    exact he v hv

theorem noMake_name {P : HistCmd → Prop} (hP : ∀ stamp label, ¬ P (.make stamp label)) {v : Version}
    (h : MaySave P v) : v.name = "stage" := by
  rcases h with h | ⟨stamp, label, hp, _⟩
  · exact h
  · exact absurd hp (hP _ _)

theorem StageInv.step {P : HistCmd → Prop} (hP : ∀ stamp label, ¬ P (.make stamp label)) {d : HDir}
    {pre : Option String} {s t : State} (hi : Inv P d s) (h : StageInv pre s) (hs : Step P s t) :
    StageInv pre t := by
  have hread : ∀ {v}, s.dir.getVersion "stage" = .ok v → v.previous = pre :=
    fun hv => h.stage _ (Podo.stored_iff.2 hv)
  cases hs with
  | start i c hp _ => exact h.put fun x hx => by cases hx; simp [Phase.unsaved]
  | leave i => exact h.put fun x hx => by cases hx
  | list h1 => exact h.put fun x hx => by cases hx; simp [Phase.unsaved]
  | scan h1 _ => exact h.put fun x hx => by cases hx; simp [Phase.unsaved]
  | opens h1 _ => exact h.put fun x hx => by cases hx; simp [Phase.unsaved]
  | ranges h1 => exact h.put fun x hx => by cases hx; simp [Phase.unsaved]
  | range h1 => exact h.put fun x hx => by cases hx; simp [Phase.unsaved]
  | ranged h1 => exact h.put fun x hx => by cases hx; simp [Phase.unsaved]
  | base h1 => exact h.put fun x hx => by cases hx; simp [Phase.unsaved]
  | replay h1 => exact h.put fun x hx => by cases hx; simp [Phase.unsaved]
  | stage h1 h2 h3 =>
    refine h.put fun x hx => ?_
    cases hx
    intro v hv
    simp only [Phase.unsaved, List.mem_singleton] at hv
    subst hv
    have hr := hread (show s.dir.getVersion "stage" = _ from h2)
    obtain ⟨rs, s', _, rfl⟩ := stageVersion_ok h3
    exact hr
  | make h1 h2 => exact absurd (hi.procs _ _ h1) (hP _ _)
  | @reset i v h1 h2 =>
    refine h.put fun x hx => ?_
    cases hx
    intro w hw
    simp only [Phase.unsaved, List.mem_singleton] at hw
    subst hw
    exact hread (v := v) h2
  | @empty i v vs d' h1 h2 =>
    have hn : v.name = "stage" := noMake_name hP (hi.procs _ _ h1 v (by simp))
    have hpr := h.procs _ _ h1
    have hv : v.previous = pre := hpr v (by simp [Phase.unsaved])
    rw [hn]
    refine StageInv.write (s := { s with dir := d' }) (e := none) ⟨⟨some v, ?_⟩, fun w hw => ?_, h.procs⟩
      (fun w hw => by cases hw) hpr
    · show d'.get? _ = _
      rw [save_get h2, hn]
      exact if_pos rfl
    · unfold Stored at hw
      change d'.get? _ = _ at hw
      rw [save_get h2, hn, if_pos rfl] at hw
      cases hw
      exact hv
  | @piece i v vs a e h1 h2 =>
    have hn : v.name = "stage" := noMake_name hP (hi.procs _ _ h1 v (by simp))
    have hpr := h.procs _ _ h1
    rw [hn]
    exact h.write (fun w hw => ((h2 w hw).2.1).trans (hpr v (by simp [Phase.unsaved]))) hpr
  | @written i v vs h1 =>
    have hn : v.name = "stage" := noMake_name hP (hi.procs _ _ h1 v (by simp))
    have hpr := h.procs _ _ h1
    rw [hn]
    exact h.write (fun w hw => by cases hw; exact hpr v (by simp [Phase.unsaved]))
      (fun w hw => hpr w (List.mem_cons_of_mem _ hw))
  | @mixed i v vs e h1 h2 =>
    have hn : v.name = "stage" := noMake_name hP (hi.procs _ _ h1 v (by simp))
    have hpr := h.procs _ _ h1
    rw [hn]
    exact h.write (fun w hw => ((h2 w hw).2.1).trans (hpr v (by simp [Phase.unsaved])))
      (fun w hw => hpr w (List.mem_cons_of_mem _ hw))
  | @relist d' hp =>
    have hg : ∀ f, AMap.get? s.dir f = AMap.get? d' f := fun f => AMap.get?_perm hi.nodup hp f
    obtain ⟨e, he⟩ := h.file
    refine ⟨⟨e, ?_⟩, fun v hv => h.stage v ?_, h.procs⟩
    · exact (hg _).symm.trans he
    · unfold Stored at hv ⊢
      rw [← hv]; exact hg _

theorem StageInv.run {P : HistCmd → Prop} (hP : ∀ stamp label, ¬ P (.make stamp label)) {d : HDir}
    {pre : Option String} {s t : State} (hi : Inv P d s) (h : StageInv pre s) (hs : Run P s t) :
    StageInv pre t := by
  induction hs with
  | refl => exact h
  | tail hr hst ih => exact ih.step hP (hi.run hr) hst

theorem stageInv_idle {d : HDir} {vs : List Version} {st : Version} (h : IsHistory d vs st) :
    StageInv st.previous (idle d) where
  file := ⟨some st, h.stored_stage⟩
  stage v hv := by
    have := h.stored_stage
    unfold Stored at this hv
    rw [show (idle d).dir = d from rfl, this] at hv
    cases hv
    rfl
  procs i p hp := by cases hp

/-- Without `make`, a directory whose stage can be read is a history with the same made versions, and it
is a listing of the old directory with another stage. -/
theorem run_history {P : HistCmd → Prop} (hP : ∀ stamp label, ¬ P (.make stamp label)) {d : HDir}
    {vs : List Version} {st : Version} (h : IsHistory d vs st) {s : State} (hr : Run P (idle d) s)
    {st' : Version} (hst' : Stored s.dir "stage" st') :
    st'.name = "stage" ∧ st'.previous = st.previous ∧ IsHistory s.dir vs st' ∧
      ∀ f, f ≠ "stage.yaml" → s.dir.get? f = d.get? f := by
  have hi : Inv P d s := (inv_idle h).run hr
  have hsi : StageInv st.previous s := StageInv.run hP (inv_idle h) (stageInv_idle h) hr
  have hpre := hsi.stage st' hst'
  have hn : st'.name = "stage" := hi.stage st' (Podo.stored_iff.1 hst')
  have hf : ∀ f, f ≠ "stage.yaml" → s.dir.get? f = d.get? f :=
    fun f hf => hi.files f hf (fun a b hp => absurd hp (hP a b))
  obtain ⟨d₁, hd₁, hh⟩ := h.saveStage hn hpre
  have hp : d₁.Perm s.dir := by
    refine amap_perm_of_get hh.nodup hi.nodup fun k => ?_
    rw [save_get hd₁, hn]
    by_cases e : k = "stage" ++ ".yaml"
    · rw [if_pos e, e]; exact hst'.symm
    · rw [if_neg e, hf k e]
  exact ⟨hn, hpre, hh.perm hp, hf⟩

/-! ### One writes at a time -/

/-- At most one process is writing, and it is alone; where none is, the stage can be read. -/
structure Tidy (s : State) : Prop where
  one : ∀ i j, s.Writing i → s.Writing j → i = j
  alone : ∀ i v vs a, s.procs i = some (.writing v vs a) → a = true
  readable : (∀ i, ¬ s.Writing i) → ∃ v, Stored s.dir "stage" v

theorem not_writing {s : State} {i : Nat} {p : Phase} (h : s.procs i = some p)
    (hp : ∀ v vs a, p ≠ .writing v vs a) : ¬ s.Writing i := by
  rintro ⟨v, vs, a, h'⟩
  rw [h] at h'
  cases h'
  exact hp _ _ _ rfl

theorem Tidy.put {s : State} (h : Tidy s) {i : Nat} {p : Option Phase} (hi : ¬ s.Writing i)
    (hp : ∀ x, p = some x → ∀ v vs a, x ≠ .writing v vs a) : Tidy (s.put i p) := by
  have hw : ∀ j, (s.put i p).Writing j → s.Writing j := by
    rintro j ⟨v, vs, a, hj⟩
    rw [put_procs] at hj
    split at hj
    · exact absurd rfl (hp _ hj v vs a)
    · exact ⟨v, vs, a, hj⟩
  refine ⟨fun j k hj hk => h.one j k (hw j hj) (hw k hk), fun j v vs a hj => ?_, fun hn => h.readable ?_⟩
  · rw [put_procs] at hj
    split at hj
    · exact absurd rfl (hp _ hj v vs a)
    · exact h.alone j v vs a hj
  · rintro j ⟨v, vs, a, hj⟩
    refine hn j ⟨v, vs, a, ?_⟩
    rw [put_procs, if_neg ?_]
    · exact hj
    · rintro rfl
      exact hi ⟨v, vs, a, hj⟩

theorem write_writing {s : State} {i j : Nat} {p : Phase} {n : String} {e : Option Version} (hji : j ≠ i) :
    (s.write i p n e).Writing j ↔ s.Writing j := by
  unfold State.Writing
  rw [write_procs, if_neg hji]
  constructor
  · rintro ⟨v, vs, a, hj⟩
    cases hq : s.procs j with
    | none => rw [hq] at hj; cases hj
    | some q =>
      rw [hq] at hj
      cases q with
      | writing w ws b => exact ⟨w, ws, b, rfl⟩
      | _ => injection hj with hj; cases hj
  · rintro ⟨v, vs, a, hj⟩
    exact ⟨v, vs, a && v.name != n, by rw [hj]; rfl⟩

theorem Tidy.step {P : HistCmd → Prop} (hP : ∀ stamp label, ¬ P (.make stamp label)) {d : HDir}
    {s t : State} (hi : Inv P d s) (h : Tidy s) (hs : Step P s t) (ho : Orderly s t) : Tidy t := by
  cases hs with
  | start i c hp h1 =>
    refine h.put ?_ (fun x hx => by cases hx; simp)
    rintro ⟨v, vs, a, h'⟩
    rw [h1] at h'; cases h'
  | leave i =>
    refine h.put (fun hw => ho.alive i hw ?_) (fun x hx => by cases hx)
    rw [put_procs, if_pos rfl]
  | list h1 => exact h.put (not_writing h1 (by simp)) (fun x hx => by cases hx; simp)
  | scan h1 _ => exact h.put (not_writing h1 (by simp)) (fun x hx => by cases hx; simp)
  | opens h1 _ => exact h.put (not_writing h1 (by simp)) (fun x hx => by cases hx; simp)
  | ranges h1 => exact h.put (not_writing h1 (by simp)) (fun x hx => by cases hx; simp)
  | range h1 => exact h.put (not_writing h1 (by simp)) (fun x hx => by cases hx; simp)
  | ranged h1 => exact h.put (not_writing h1 (by simp)) (fun x hx => by cases hx; simp)
  | base h1 => exact h.put (not_writing h1 (by simp)) (fun x hx => by cases hx; simp)
  | replay h1 => exact h.put (not_writing h1 (by simp)) (fun x hx => by cases hx; simp)
  | stage h1 h2 h3 => exact h.put (not_writing h1 (by simp)) (fun x hx => by cases hx; simp)
  | make h1 h2 => exact absurd (hi.procs _ _ h1) (hP _ _)
  | reset h1 h2 => exact h.put (not_writing h1 (by simp)) (fun x hx => by cases hx; simp)
  | @empty i v vs d' h1 h2 =>
    have hw : State.Writing ({ s with dir := d' }.write i (.writing v vs true) v.name none) i :=
      ⟨v, vs, true, by rw [write_procs, if_pos rfl]⟩
    refine ⟨ho.one, fun j w ws a hj => ?_, fun hn => absurd hw (hn i)⟩
    have := ho.one j i ⟨w, ws, a, hj⟩ hw
    subst this
    rw [write_procs, if_pos rfl] at hj
    cases hj
    rfl
  | @piece i v vs a e h1 h2 =>
    have hw : State.Writing (s.write i (.writing v vs a) v.name e) i :=
      ⟨v, vs, a, by rw [write_procs, if_pos rfl]⟩
    refine ⟨ho.one, fun j w ws b hj => ?_, fun hn => absurd hw (hn i)⟩
    have := ho.one j i ⟨w, ws, b, hj⟩ hw
    subst this
    rw [write_procs, if_pos rfl] at hj
    cases hj
    exact h.alone _ _ _ _ h1
  | @written i v vs h1 =>
    have hn : v.name = "stage" := noMake_name hP (hi.procs _ _ h1 v (by simp))
    refine ⟨ho.one, fun j w ws b hj => ?_, fun _ => ⟨v, ?_⟩⟩
    · exfalso
      by_cases hji : j = i
      · subst hji
        rw [write_procs, if_pos rfl] at hj
        cases hj
      · exact hji (h.one j i ((write_writing hji).1 ⟨w, ws, b, hj⟩) ⟨v, vs, true, h1⟩)
    · unfold Stored
      rw [write_get (hi.there _ _ _ _ h1), hn, if_pos rfl]
  | @mixed i v vs e h1 h2 => cases h.alone _ _ _ _ h1
  | @relist d' hp =>
    refine ⟨h.one, h.alone, fun hn => ?_⟩
    obtain ⟨v, hv⟩ := h.readable hn
    refine ⟨v, ?_⟩
    unfold Stored at hv ⊢
    rw [← hv]
    exact (AMap.get?_perm hi.nodup hp _).symm

theorem Tidy.run {P : HistCmd → Prop} (hP : ∀ stamp label, ¬ P (.make stamp label)) {d : HDir}
    {s t : State} (hi : Inv P d s) (h : Tidy s) (hs : OrderlyRun P s t) : Tidy t := by
  induction hs with
  | refl => exact h
  | tail hr hst ho ih => exact ih.step hP (hi.run hr.run) hst ho

theorem tidy_idle {d : HDir} {vs : List Version} {st : Version} (h : IsHistory d vs st) : Tidy (idle d) where
  one i j hi _ := by obtain ⟨v, vs, a, hv⟩ := hi; cases hv
  alone i v vs a hv := by cases hv
  readable _ := ⟨st, h.stored_stage⟩

end FConc
end Podo
