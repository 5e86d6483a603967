import Verif.Proofs.Conc
import Verif.Proofs.Commands
/-
Lemmas for C69: podo processes on one line of versions act as if one after the other.
-/
set_option linter.unusedSimpArgs false
namespace Podo
namespace Conc
open Pg (Row VTable)

/-- A version table that records a beginning of the line, in order. -/
structure Chain (L : Version → Prop) (rows : List Row) (next : Nat) : Prop where
  head : ∃ rest, rows = ⟨Version.newInit, 1⟩ :: rest
  linked : Linked none (rows.map Row.version)
  orders : (rows.map Row.order).Pairwise (· < ·)
  below : ∀ r ∈ rows, r.order < next
  line : ∀ r ∈ rows, r.version = Version.newInit ∨ L r.version

theorem Chain.mono {L : Version → Prop} {rows : List Row} {n m : Nat} (h : Chain L rows n) (hnm : n ≤ m) :
    Chain L rows m :=
  ⟨h.head, h.linked, h.orders, fun r hr => Nat.lt_of_lt_of_le (h.below r hr) hnm, h.line⟩

theorem Chain.prefix {L : Version → Prop} {a b : List Row} {n : Nat} (h : Chain L (a ++ b) n) (ha : a ≠ []) :
    Chain L a n := by
  obtain ⟨⟨rest, h1⟩, h2, h3, h4, h5⟩ := h
  refine ⟨?_, ?_, ?_, fun r hr => h4 r (List.mem_append_left _ hr), fun r hr => h5 r (List.mem_append_left _ hr)⟩
  · cases a with
    | nil => exact absurd rfl ha
    | cons x a =>
      simp only [List.cons_append, List.cons.injEq] at h1
      exact ⟨a, by rw [h1.1]⟩
  · rw [List.map_append, Linked.append] at h2; exact h2.1
  · rw [List.map_append, List.pairwise_append] at h3; exact h3.1

/-- In a chain, the version that follows a row is the one of the next row. -/
theorem Chain.follows {L : Version → Prop} {A B : List Row} {x y : Row} {n : Nat}
    (h : Chain L (A ++ x :: y :: B) n) : y.version.previous = some (nm x) := by
  have := h.linked
  rw [show A ++ x :: y :: B = (A ++ [x]) ++ y :: B by simp, List.map_append, List.map_cons] at this
  have := this.prev_last
  simpa using this

/-- A version of the line that is not recorded and follows a recorded one follows the last. -/
theorem Chain.last {L : Version → Prop} (ho : OneLine L) {rows : List Row} {n : Nat} (h : Chain L rows n)
    {v : Version} (hv : L v) (hn : v.name ∉ rows.map nm) {p : String} (hp : v.previous = some p)
    (hm : p ∈ rows.map nm) : ∃ A x, rows = A ++ [x] ∧ nm x = p := by
  obtain ⟨x, hx, rfl⟩ := List.mem_map.1 hm
  obtain ⟨A, B, rfl⟩ := List.append_of_mem hx
  cases B with
  | nil => exact ⟨A, x, rfl, rfl⟩
  | cons y B =>
    exfalso
    have hy := h.follows
    rcases h.line y (by simp) with e | hyl
    · rw [e] at hy; cases hy
    · have := ho.next _ _ _ hyl hv hy hp
      exact hn (List.mem_map.2 ⟨y, by simp, by rw [nm, this]⟩)

theorem Chain.snoc {L : Version → Prop} {A : List Row} {x : Row} {n : Nat} (h : Chain L (A ++ [x]) n)
    {v : Version} (hv : L v) (hp : v.previous = some (nm x)) :
    Chain L ((A ++ [x]) ++ [⟨v, n⟩]) (n + 1) := by
  obtain ⟨⟨rest, h1⟩, h2, h3, h4, h5⟩ := h
  refine ⟨⟨rest ++ [⟨v, n⟩], by rw [h1]; rfl⟩, ?_, ?_, ?_, ?_⟩
  · rw [List.map_append, Linked.append]
    refine ⟨h2, ?_⟩
    simp only [List.map_append, List.map_cons, List.map_nil, List.getLast?_append, List.getLast?_singleton,
      Option.some_or, Option.map_some]
    exact ⟨hp, trivial⟩
  · rw [List.map_append, List.pairwise_append]
    refine ⟨h3, by simp, ?_⟩
    intro a ha b hb
    simp only [List.map_cons, List.map_nil, List.mem_singleton] at hb
    subst hb
    obtain ⟨r, hr, rfl⟩ := List.mem_map.1 ha
    exact h4 r hr
  · intro r hr
    rcases List.mem_append.1 hr with hr | hr
    · exact Nat.lt_succ_of_lt (h4 r hr)
    · simp only [List.mem_singleton] at hr; subst hr; exact Nat.lt_succ_self _
  · intro r hr
    rcases List.mem_append.1 hr with hr | hr
    · exact h5 r hr
    · simp only [List.mem_singleton] at hr; subst hr; exact .inr hv

theorem path_follows {d : HDir} {a b : String} {l : List String} (h : VersionPath d a b l) :
    ∀ n ∈ l, OnPath d n b ∧ ∃ v, Stored d n v ∧ v.previous ≠ none := by
  induction h with
  | here _ => intro n hn; cases hn
  | later _ hs hv ih =>
    intro n hn
    rcases List.mem_append.1 hn with hn | hn
    · obtain ⟨⟨l', hl'⟩, h2⟩ := ih n hn
      exact ⟨⟨_, .later hl' hs hv⟩, h2⟩
    · simp only [List.mem_singleton] at hn
      subst hn
      exact ⟨⟨[], .here hs⟩, _, hs, by rw [hv]; simp⟩

/-- The versions `up` goes on to apply. -/
theorem range_follows {d : HDir} (hn : NamedAfterVersion d) {fuel : Nat} {a b : String} {l : List String}
    {target : Option String} (ht : target = some b ∨ target = none ∧ Opens d b)
    (h : d.upwardRange fuel a b = some (.ok l)) : ∀ n ∈ l, ∀ v, d.getVersion n = .ok v →
    MayApply d target v := by
  obtain ⟨l', hp, _, rfl⟩ := path_of_rangeLoop hn.storedNames h
  intro n hm v hv
  simp only [List.reverse_nil, List.append_nil] at hm
  obtain ⟨hon, w, hw, hwp⟩ := path_follows hp n hm
  have hs := stored_iff.2 hv
  rw [hw.unique hs] at hwp
  exact ⟨n, b, hs, hwp, hon, ht⟩

/-! ### Replaying -/

theorem Replay.append {l m k : List Version} {a b : List Ran} (h : Replay l a m) (h' : Replay m b k) :
    Replay l (a ++ b) k := by
  induction h with
  | nil => exact h'
  | up h1 h2 h3 _ ih => exact .up h1 h2 h3 (ih h')
  | down _ ih => exact .down (ih h')

theorem Replay.up_inv {l l' : List Version} {v : Version} {rs : List Ran} (h : Replay l (.up v :: rs) l') :
    ∃ top, l.getLast? = some top ∧ v.previous = some top.name ∧ v.name ∉ l.map Version.name ∧
      Replay (l ++ [v]) rs l' := by
  generalize e : Ran.up v :: rs = r at h
  cases h with
  | nil => cases e
  | up h1 h2 h3 h4 => cases e; exact ⟨_, h1, h2, h3, h4⟩
  | down _ => cases e

theorem Replay.down_inv {l l' : List Version} {v : Version} {rs : List Ran}
    (h : Replay l (.down v :: rs) l') : ∃ m, l = m ++ [v] ∧ Replay m rs l' := by
  generalize e : Ran.down v :: rs = r at h
  cases h with
  | nil => cases e
  | up => cases e
  | down h => cases e; exact ⟨_, rfl, h⟩

theorem replay_ups {ups : List Version} : ∀ {l : List Version} {top : Version}, l.getLast? = some top →
    Linked (some top.name) ups → ((l ++ ups).map Version.name).Nodup → Replay l (ups.map .up) (l ++ ups) := by
  induction ups with
  | nil => intro l top _ _ _; simpa using Replay.nil
  | cons v ups ih =>
    intro l top h1 h2 h3
    refine .up h1 h2.1 ?_ ?_
    · rw [List.map_append, List.nodup_append] at h3
      intro hm
      exact h3.2.2 _ hm _ (by simp) rfl
    · have := ih (l := l ++ [v]) (top := v) (by simp) h2.2 (by simpa using h3)
      simpa using this

theorem replay_downs {seg : List Version} : ∀ {l : List Version},
    Replay (l ++ seg) (seg.reverse.map .down) l := by
  induction seg with
  | nil => intro l; simpa using Replay.nil
  | cons v seg ih =>
    intro l
    have h1 : Replay ((l ++ [v]) ++ seg) (seg.reverse.map .down) (l ++ [v]) := ih
    have h2 : Replay (l ++ [v]) [.down v] l := .down .nil
    simpa using h1.append h2

/-! ### The invariant -/

structure GoodUp (L : Version → Prop) (s : State) (d : HDir) (t : Option String) (p : Proc) :
    Prop where
  chain : p.pc = .start ∨ Chain L (s.seen p.tx).rows s.next
  applying : ∀ ns, p.pc = .applying ns → ∀ n ∈ ns, ∀ v, d.getVersion n = .ok v → MayApply d t v
  applied : ∀ v ns, p.pc = .applied v ns →
    (L v ∧ v.previous ≠ none) ∧ ∀ n ∈ ns, ∀ v, d.getVersion n = .ok v → MayApply d t v

/-- The run of a `down` that is not in the version table yet. -/
def Pc.undone : Pc → List Ran
  | .reverted v _ => [.down v]
  | _ => []

structure GoodDown (s : State) (p : Proc) : Prop where
  fresh : p.tx.created = true → p.tx.added = [⟨Version.newInit, 1⟩] ∧ p.tx.removed = [] ∧
    (p.pc = .opened ∨ p.pc = .current Version.newInit ∨ (∃ to, p.pc = .ordered 1 to) ∨ p.pc = .bounded 1 1)
  added : p.tx.created = false → p.tx.added = []
  removed : p.tx.created = false → ∃ R seg, s.rows = R ++ seg ∧ p.tx.removed = seg.map nm ∧
    p.tx.ran = seg.reverse.map (fun r => .down r.version) ++ p.pc.undone ∧ (s.rows ≠ [] → R ≠ [])
  bounded : ∀ f o, p.pc = .bounded f o → 1 ≤ o
  reverting : ∀ ns, p.pc = .reverting ns → "init" ∉ ns
  reverted : ∀ v ns, p.pc = .reverted v ns → v ∈ s.rows.map Row.version ∧ v.name ∉ p.tx.removed ∧
    v.name ≠ "init" ∧ "init" ∉ ns

/-- The process has changed the version table. -/
def Tx.quiet (tx : Tx) : Prop := tx.added = [] ∧ tx.removed = []

structure Ser (L : Version → Prop) (s : State) : Prop where
  base : ∀ R, s.table = some R → Chain L R s.next
  replay : Replay [Version.newInit] s.log s.recorded
  up : ∀ i p d t, s.procs i = some p → p.cmd = .up d t → GoodUp L s d t p
  down : ∀ i p t, s.procs i = some p → p.cmd = .down t → GoodDown s p
  excl : ∀ i j p q, i ≠ j → s.procs i = some p → s.procs j = some q → p.tx.quiet ∨ q.tx.quiet

theorem Ser.new {L : Version → Prop} : Ser L State.new := by
  constructor
  · intro R h; cases h
  · exact .nil
  · intro i p d t h; cases h
  · intro i p t h; cases h
  · intro i j p q _ h; cases h

theorem rows_congr {s s' : State} (ht : s'.table = s.table) : s'.rows = s.rows := by
  unfold State.rows; rw [ht]

theorem seen_congr {s s' : State} (ht : s'.table = s.table) (tx : Tx) :
    (s'.seen tx).rows = (s.seen tx).rows := by
  unfold State.seen; rw [rows_congr ht]

theorem GoodUp.congr {L : Version → Prop} {s s' : State} (ht : s'.table = s.table) (hn : s.next ≤ s'.next)
    {d : HDir} {t : Option String} {p : Proc} (h : GoodUp L s d t p) : GoodUp L s' d t p := by
  refine ⟨h.chain.imp id fun hc => ?_, h.applying, h.applied⟩
  rw [seen_congr ht]
  exact hc.mono hn

theorem GoodDown.congr {s s' : State} (ht : s'.table = s.table) {p : Proc} (h : GoodDown s p) :
    GoodDown s' p := by
  obtain ⟨h1, h2, h3, h4, h5, h6⟩ := h
  exact ⟨h1, h2, by rw [rows_congr ht]; exact h3, h4, h5, by rw [rows_congr ht]; exact h6⟩

/-- A step of process `i` that commits nothing. -/
theorem Ser.update {L : Version → Prop} {s s' : State} (h : Ser L s) (i : Nat) (p' : Option Proc)
    (ht : s'.table = s.table) (hl : s'.log = s.log)
    (hn : s.next ≤ s'.next ∨ s.table = none ∧ ∀ j q, j ≠ i → s.procs j = some q → q.pc = .start)
    (hp : s'.procs = (s.put i p').procs)
    (hu : ∀ p d t, p' = some p → p.cmd = .up d t → GoodUp L s' d t p)
    (hd : ∀ p t, p' = some p → p.cmd = .down t → GoodDown s p)
    (he : ∀ p j q, p' = some p → j ≠ i → s.procs j = some q → p.tx.quiet ∨ q.tx.quiet) : Ser L s' := by
  constructor
  · intro R hR
    rw [ht] at hR
    rcases hn with hn | hn
    · exact (h.base R hR).mono hn
    · rw [hn.1] at hR; cases hR
  · have : s'.recorded = s.recorded := by unfold State.recorded; rw [ht]
    rw [this, hl]; exact h.replay
  · intro j q d t hj
    rw [hp] at hj
    by_cases e : j = i
    · subst e
      rw [put_same] at hj
      exact hu q d t hj
    · rw [put_other e] at hj
      intro hc
      rcases hn with hn | ⟨_, hn⟩
      · exact (h.up j q d t hj hc).congr ht hn
      · have := hn j q e hj
        exact ⟨.inl this, fun ns e => (by rw [this] at e; cases e), fun v ns e => (by rw [this] at e; cases e)⟩
  · intro j q t hj
    rw [hp] at hj
    by_cases e : j = i
    · subst e
      rw [put_same] at hj
      exact fun hc => (hd q t hj hc).congr ht
    · rw [put_other e] at hj
      exact fun hc => (h.down j q t hj hc).congr ht
  · intro j k q r hne hj hk
    rw [hp] at hj hk
    by_cases e : j = i
    · subst e
      rw [put_same] at hj
      rw [put_other (Ne.symm hne)] at hk
      exact he q k r hj (Ne.symm hne) hk
    · rw [put_other e] at hj
      by_cases e' : k = i
      · subst e'
        rw [put_same] at hk
        exact (he r j q hk e hj).symm
      · rw [put_other e'] at hk
        exact h.excl j k q r hne hj hk

theorem seen_quiet {s : State} {tx : Tx} (h : tx.removed = []) : (s.seen tx).rows = s.rows ++ tx.added := by
  simp only [State.seen, h]
  congr 1
  exact List.filter_eq_self.2 (fun _ _ => rfl)

theorem started {s : State} (hi : Inv s) {i : Nat} {p : Proc} (hp : s.procs i = some p)
    (hpc : p.pc ≠ .start) (hc : p.tx.created = false) : ∃ R, s.table = some R := by
  cases ht : s.table with
  | some R => exact ⟨R, rfl⟩
  | none => exact absurd (hi.absent ht i p hp hc) hpc

theorem start_quiet {s : State} (hi : Inv s) {i : Nat} {p : Proc} (hp : s.procs i = some p)
    (hpc : p.pc = .start) : p.tx.quiet := by
  rw [hi.start i p hp hpc]; exact ⟨rfl, rfl⟩

/-- What a transaction that adds or deletes at the end of the table excludes: the next version of a process
that has inserted one. -/
theorem added_head {L : Version → Prop} {rows : List Row} {n : Nat} {A added us : List Row} {x u : Row}
    (h : Chain L (rows ++ added) n) (hr : rows = A ++ [x]) (ha : added = u :: us) :
    u.version.previous = some (nm x) := by
  subst hr ha
  rw [List.append_assoc] at h
  exact h.follows

theorem between_mem {t : VTable} {f o : Nat} {n : String} (h : n ∈ between t f o) :
    ∃ r ∈ t.rows, nm r = n ∧ o < r.order := by
  unfold between at h
  obtain ⟨r, hr, rfl⟩ := List.mem_map.1 h
  rw [List.mem_mergeSort, List.mem_filter] at hr
  simp only [Bool.and_eq_true, decide_eq_true_eq] at hr
  exact ⟨r, hr.1, rfl, hr.2.2⟩

theorem order_mem {t : VTable} {n : String} {o : Nat} (h : t.order n = some o) :
    ∃ r ∈ t.rows, r.order = o := by
  unfold VTable.order at h
  simp only [Option.map_eq_some_iff] at h
  obtain ⟨r, hr, rfl⟩ := h
  exact ⟨r, List.mem_of_find?_eq_some hr, rfl⟩

theorem getVersion_mem {t : VTable} {n : String} {v : Version} (h : t.getVersion n = some v) :
    v.name = n ∧ ∃ r ∈ t.rows, r.version = v := by
  unfold VTable.getVersion at h
  simp only [Option.map_eq_some_iff] at h
  obtain ⟨r, hr, rfl⟩ := h
  exact ⟨by simpa using List.find?_some hr, r, List.mem_of_find?_eq_some hr, rfl⟩

theorem Chain.one_le {L : Version → Prop} {rows : List Row} {n : Nat} (h : Chain L rows n) :
    ∀ r ∈ rows, 1 ≤ r.order := by
  obtain ⟨⟨rest, rfl⟩, _, h3, _, _⟩ := h
  intro r hr
  rcases List.mem_cons.1 hr with rfl | hr
  · exact Nat.le_refl _
  · rw [List.map_cons, List.pairwise_cons] at h3
    exact Nat.le_of_lt (h3.1 _ (List.mem_map.2 ⟨r, hr, rfl⟩))

/-- The row of the initial version is the first. -/
theorem Chain.init_row {L : Version → Prop} {rows : List Row} {n : Nat} (h : Chain L rows n)
    (hn : (rows.map nm).Nodup) {r : Row} (hr : r ∈ rows) (e : nm r = "init") : r.order = 1 := by
  obtain ⟨⟨rest, rfl⟩, _, _, _, _⟩ := h
  rcases List.mem_cons.1 hr with rfl | hr
  · rfl
  · rw [List.map_cons, List.nodup_cons] at hn
    exact absurd (List.mem_map.2 ⟨r, hr, e⟩) hn.1

theorem filter_seg {R seg : List Row} (hn : ((R ++ seg).map nm).Nodup) :
    ((R ++ seg).filter fun r => !(seg.map nm).contains r.version.name) = R := by
  rw [List.filter_append]
  rw [List.map_append, List.nodup_append] at hn
  have h1 : (R.filter fun r => !(seg.map nm).contains r.version.name) = R := by
    apply List.filter_eq_self.2
    intro r hr
    simp only [List.contains_eq_mem, Bool.not_eq_true', decide_eq_false_iff_not]
    intro hm
    exact hn.2.2 _ (List.mem_map.2 ⟨r, hr, rfl⟩) _ hm rfl
  have h2 : (seg.filter fun r => !(seg.map nm).contains r.version.name) = [] := by
    apply List.filter_eq_nil_iff.2
    intro r hr
    simp only [List.contains_eq_mem, Bool.not_eq_true', decide_eq_false_iff_not, Classical.not_not]
    exact List.mem_map.2 ⟨r, hr, rfl⟩
  rw [h1, h2, List.append_nil]

theorem Ser.saveUp {L : Version → Prop} (ho : OneLine L) {s : State} (hi : Inv s) (hl : LogInv s) (h : Ser L s)
    {i : Nat} {c : Cmd} {tx : Tx} {v : Version} {ns : List String}
    (hp : s.procs i = some ⟨c, .applied v ns, tx⟩)
    (hfree : s.free i (fun o => v.name ∉ o.added.map (fun r => r.version.name) ∧ v.name ∉ o.removed ∧
        ∀ p, v.previous = some p → p ∉ o.removed))
    (hadm : (s.seen tx).admits v = true) :
    Ser L { s.put i (some ⟨c, .applying ns, { tx with added := tx.added ++ [⟨v, s.next⟩] }⟩) with
        next := s.next + 1 } := by
  cases c with
  | down t => exact absurd rfl ((hl.down i _ t hp rfl).pc.2 v ns)
  | up d t =>
  have hg := h.up i _ d t hp rfl
  have hup := hl.up i _ d t hp rfl
  have hrm : tx.removed = [] := hup.removed
  have hch : Chain L (s.seen tx).rows s.next := hg.chain.resolve_left (by simp)
  obtain ⟨hv, hns⟩ := hg.applied v ns rfl
  obtain ⟨hname, hprev⟩ := admits_iff hadm
  obtain ⟨hv, hpn⟩ := hv
  obtain ⟨p, hpv⟩ : ∃ p, v.previous = some p := by
    cases hx : v.previous with
    | none => exact absurd hx hpn
    | some p => exact ⟨p, rfl⟩
  have hpm : p ∈ (s.seen tx).rows.map nm := by
    rcases hprev p hpv with rfl | hm
    · exact absurd hpv (ho.irrefl v hv)
    · exact hm
  obtain ⟨A, x, hAx, hxp⟩ := hch.last ho hv hname hpv hpm
  have hseen := seen_quiet (s := s) hrm
  refine h.update i _ rfl rfl (.inl (Nat.le_succ _)) rfl ?_ (fun p t e hc => by cases e; cases hc) ?_
  · rintro q d' t' e hc
    cases e
    cases hc
    refine ⟨.inr ?_, fun ns' e => ?_, fun _ _ e => (by cases e)⟩
    · have e : (State.seen { s.put i (some ⟨.up d t, .applying ns,
          { tx with added := tx.added ++ [⟨v, s.next⟩] }⟩) with next := s.next + 1 }
          { tx with added := tx.added ++ [⟨v, s.next⟩] }).rows = (s.seen tx).rows ++ [⟨v, s.next⟩] := by
        show (s.rows.filter _) ++ (tx.added ++ [_]) = _
        rw [← List.append_assoc]; rfl
      show Chain L (State.seen _ _).rows _
      rw [e, hAx]
      rw [hAx] at hch
      exact hch.snoc hv (by rw [hpv, hxp])
    · cases e; exact hns
  · rintro q' j q e hne hj
    cases e
    by_cases hq : tx.quiet
    rotate_left
    · exact .inr ((h.excl i j _ q (Ne.symm hne) hp hj).resolve_left hq)
    · right
      obtain ⟨f1, f2, f3⟩ := hfree j q hne hj
      have hrows : s.rows = A ++ [x] := by rw [← hAx, hseen, hq.1, List.append_nil]
      by_cases hst : q.pc = .start
      · exact start_quiet hi hj hst
      · have hcf : q.tx.created = false := by
          cases hcq : q.tx.created with
          | false => rfl
          | true =>
            have := hi.created j q hj hcq
            have e : s.rows = [] := by unfold State.rows; rw [this]; rfl
            rw [e] at hrows
            simp at hrows
        cases hqc : q.cmd with
        | up d' t' =>
          have hgq := h.up j q d' t' hj hqc
          have hrq := (hl.up j q d' t' hj hqc).removed
          refine ⟨?_, hrq⟩
          have hcq := hgq.chain.resolve_left hst
          rw [seen_quiet hrq] at hcq
          cases haq : q.tx.added with
          | nil => rfl
          | cons u us =>
            exfalso
            have hu := added_head hcq hrows haq
            rcases hcq.line u (by simp [haq]) with e | hul
            · rw [e] at hu; cases hu
            · rw [hxp] at hu
              have e := ho.next _ _ _ hul hv hu hpv
              exact f1 (List.mem_map.2 ⟨u, by simp [haq], by rw [e]⟩)
        | down t' =>
          have hgq := h.down j q t' hj hqc
          refine ⟨hgq.added hcf, ?_⟩
          obtain ⟨R', seg, h1, h2, _, _⟩ := hgq.removed hcf
          rw [h2]
          rcases List.eq_nil_or_concat seg with rfl | ⟨seg', y, rfl⟩
          · rfl
          · exfalso
            rw [hrows, List.concat_eq_append, ← List.append_assoc] at h1
            have e := (List.append_inj' h1 rfl).2
            simp only [List.cons.injEq, and_true] at e
            subst e
            apply f3 p hpv
            rw [h2, List.concat_eq_append]
            simp [hxp]

theorem Ser.deleteDown {L : Version → Prop} {s : State} (hi : Inv s) (hl : LogInv s) (h : Ser L s)
    (hone : OneDown s) {i : Nat} {c : Cmd} {tx : Tx} {v : Version} {ns : List String}
    (hp : s.procs i = some ⟨c, .reverted v ns, tx⟩)
    (hfree : s.free i (fun o => v.name ∉ o.removed ∧ (∀ r ∈ o.added, r.version.previous ≠ some v.name) ∧
        ∀ r ∈ s.rows, r.version.name ∈ o.removed → r.version.previous ≠ some v.name))
    (hdel : ∃ t, (s.seen tx).delete v = some t) :
    Ser L (s.put i (some ⟨c, .reverting ns, tx.deleted s v.name⟩)) := by
  cases c with
  | up d t => rcases (hl.up i _ d t hp rfl).pc with h | h | ⟨_, h⟩ | ⟨_, _, h⟩ <;> cases h
  | down t =>
  have hg := h.down i _ t hp rfl
  have hcf : tx.created = false := by
    cases hc : tx.created with
    | false => rfl
    | true =>
      rcases (hg.fresh hc).2.2 with e | e | ⟨_, e⟩ | e <;> cases e
  obtain ⟨R, ht⟩ := started hi hp (by simp) hcf
  have hrows : s.rows = R := by unfold State.rows; rw [ht]; rfl
  have hch := h.base R ht
  obtain ⟨R', seg, h1, h2, h3, h4⟩ := hg.removed hcf
  obtain ⟨hv, hvr, hvi, hni⟩ := hg.reverted v ns rfl
  have ha : tx.added = [] := hg.added hcf
  obtain ⟨t', hdel⟩ := hdel
  have hdel := delete_iff hdel
  have hnd := hi.nodup
  obtain ⟨x, hx, hxv⟩ := List.mem_map.1 hv
  have hvmem : v.name ∈ s.rows.map nm := List.mem_map.2 ⟨x, hx, by rw [nm, hxv]⟩
  -- the row is the last one left
  obtain ⟨A, hA⟩ : ∃ A, R' = A ++ [x] := by
    have hxR : x ∈ R' := by
      rw [h1] at hx
      rcases List.mem_append.1 hx with hx | hx
      · exact hx
      · exfalso
        apply hvr
        show v.name ∈ tx.removed
        rw [show tx.removed = seg.map nm from h2]
        exact List.mem_map.2 ⟨x, hx, by rw [nm, hxv]⟩
    obtain ⟨A, B, hAB⟩ := List.append_of_mem hxR
    cases B with
    | nil => exact ⟨A, hAB⟩
    | cons y B =>
      exfalso
      have e : s.rows = A ++ x :: y :: (B ++ seg) := by rw [h1, hAB]; simp
      rw [hrows] at e
      rw [e] at hch
      have hy := hch.follows
      rw [← hrows] at e
      rw [e] at hnd
      simp only [List.map_append, List.map_cons, List.nodup_append, List.nodup_cons, List.mem_cons,
        List.mem_append, not_or] at hnd
      refine hdel y (mem_seen.2 (.inl ⟨by rw [e]; simp, ?_⟩)) ?_ (by rw [hy, nm, hxv])
      · rw [show tx.removed = seg.map nm from h2]
        exact hnd.2.1.2.1.2
      · rw [← hxv]
        exact fun e => hnd.2.1.1.1 e.symm
  subst hA
  have hrem : (tx.deleted s v.name).removed = (x :: seg).map nm := by
    simp only [Tx.deleted]
    rw [if_pos (any_name.2 hvmem), show tx.removed = seg.map nm from h2, ← hxv]
    rfl
  have hAne : A ≠ [] := by
    rintro rfl
    obtain ⟨rest, hh⟩ := hch.head
    rw [← hrows, h1] at hh
    simp only [List.nil_append, List.cons_append, List.cons.injEq] at hh
    apply hvi
    rw [← hxv, hh.1]
    rfl
  refine h.update i _ rfl rfl (.inl (Nat.le_refl _)) rfl (fun p d t e hc => by cases e; cases hc) ?_ ?_
  · rintro q t' e hc
    cases e
    refine ⟨fun hc => ?_, fun _ => ?_, fun _ => ⟨A, x :: seg, by rw [h1]; simp, hrem, ?_, fun _ => hAne⟩,
      fun _ _ e => (by cases e), fun ns' e => (by cases e; exact hni), fun _ _ e => (by cases e)⟩
    · rw [show tx.created = true from hc] at hcf; cases hcf
    · simp [Tx.deleted, ha]
    · show tx.ran = _
      rw [show tx.ran = _ from h3]
      simp [Pc.undone, hxv]
  · rintro p' j q e hne hj
    cases e
    right
    by_cases hseg : seg = []
    rotate_left
    · refine (h.excl i j _ q (Ne.symm hne) hp hj).resolve_left ?_
      rintro ⟨_, hq⟩
      rw [show tx.removed = _ from h2] at hq
      exact hseg (List.map_eq_nil_iff.1 hq)
    · subst hseg
      rw [List.append_nil] at h1
      obtain ⟨f1, f2, _⟩ := hfree j q hne hj
      by_cases hst : q.pc = .start
      · exact start_quiet hi hj hst
      · cases hqc : q.cmd with
        | down t' => exact absurd (hone j i q _ t' t hj hp hqc rfl) hne
        | up d' t' =>
          have hgq := h.up j q d' t' hj hqc
          have hrq := (hl.up j q d' t' hj hqc).removed
          refine ⟨?_, hrq⟩
          have hcq := hgq.chain.resolve_left hst
          rw [seen_quiet hrq] at hcq
          cases haq : q.tx.added with
          | nil => rfl
          | cons u us =>
            exfalso
            have hu := added_head hcq h1 haq
            exact f2 u (by simp [haq]) (by rw [hu, nm, hxv])

/-- Process `i` commits a change while no other transaction has made one. -/
theorem Ser.commit {L : Version → Prop} {s s' : State} (h : Ser L s) (i : Nat) {N : List Row}
    (ht : s'.table = some N) (hn : s'.next = s.next) (hp : s'.procs = (s.put i none).procs)
    (hc : Chain L N s.next) (hr : Replay [Version.newInit] s'.log s'.recorded)
    (hq : ∀ j q, j ≠ i → s.procs j = some q → q.tx.quiet)
    (hd : ∀ j q t, j ≠ i → s.procs j = some q → q.cmd = .down t →
      ∀ v ∈ s.rows.map Row.version, v ∈ N.map Row.version) : Ser L s' := by
  have hrows : s'.rows = N := by unfold State.rows; rw [ht]; rfl
  have hN : N ≠ [] := by obtain ⟨rest, e⟩ := hc.head; rw [e]; simp
  have key : ∀ j q, s'.procs j = some q → j ≠ i ∧ s.procs j = some q := by
    intro j q hj
    rw [hp] at hj
    by_cases e : j = i
    · subst e; rw [put_same] at hj; cases hj
    · rw [put_other e] at hj; exact ⟨e, hj⟩
  constructor
  · intro R hR
    rw [ht] at hR; cases hR
    rw [hn]; exact hc
  · exact hr
  · intro j q d t hj hcmd
    obtain ⟨hne, hj⟩ := key j q hj
    have hg := h.up j q d t hj hcmd
    refine ⟨.inr ?_, hg.applying, hg.applied⟩
    rw [seen_quiet (hq j q hne hj).2, (hq j q hne hj).1, hrows, hn, List.append_nil]
    exact hc
  · intro j q t hj hcmd
    obtain ⟨hne, hj⟩ := key j q hj
    have hg := h.down j q t hj hcmd
    obtain ⟨ha, hrm⟩ := hq j q hne hj
    refine ⟨fun hcr => ?_, hg.added, fun hcf => ⟨N, [], by rw [hrows]; simp, hrm, ?_, fun _ => hN⟩, hg.bounded,
      hg.reverting, fun v ns e => ?_⟩
    · rw [(hg.fresh hcr).1] at ha; cases ha
    · obtain ⟨R', seg, _, h2, h3, _⟩ := hg.removed hcf
      rw [hrm] at h2
      rw [List.map_eq_nil_iff.1 h2.symm] at h3
      exact h3
    · obtain ⟨h1, h2⟩ := hg.reverted v ns e
      refine ⟨?_, h2⟩
      rw [hrows]
      exact hd j q t hne hj hcmd v h1
  · intro j k q r _ hj _
    obtain ⟨hne, hj⟩ := key j q hj
    exact .inl (hq j q hne hj)

theorem Ser.commitUp {L : Version → Prop} {s : State} (hi : Inv s) (hl : LogInv s) (h : Ser L s)
    {i : Nat} {c : Cmd} {tx : Tx} (hp : s.procs i = some ⟨c, .applying [], tx⟩) :
    Ser L { s.put i none with table := some (s.seen tx).rows, log := s.log ++ tx.ran } := by
  cases c with
  | down t => exact absurd rfl ((hl.down i _ t hp rfl).pc.1 [])
  | up d t =>
  have hg := h.up i _ d t hp rfl
  have hup := hl.up i _ d t hp rfl
  have hrm : tx.removed = [] := hup.removed
  have hch : Chain L (s.seen tx).rows s.next := hg.chain.resolve_left (by simp)
  obtain ⟨ups, hups, hran⟩ := hup.ran
  simp only [Pc.pending, List.append_nil] at hups hran
  have hseen := seen_quiet (s := s) hrm
  -- the rows of the table once this is committed
  have hrec : s.recorded ++ ups = (s.seen tx).rows.map Row.version ∧ s.recorded ≠ [] := by
    rw [hseen, List.map_append, hups]
    cases hcr : tx.created with
    | true =>
      have := hi.created i _ hp hcr
      simp [State.recorded, State.rows, this]
    | false =>
      obtain ⟨R, hR⟩ := started hi hp (by simp) hcr
      obtain ⟨rest, e⟩ := (h.base R hR).head
      simp [State.recorded, State.rows, hR, e]
  by_cases hq : tx.quiet
  · have hcr : tx.created = false := by
      cases hcr : tx.created with
      | false => rfl
      | true => rw [hq.1, hcr] at hups; simp at hups
    obtain ⟨R, hR⟩ := started hi hp (by simp) hcr
    have hu : ups = [] := by rw [hq.1, hcr] at hups; simpa using hups
    refine h.update i none ?_ ?_ (.inl (Nat.le_refl _)) rfl (fun _ _ _ e => by cases e)
      (fun _ _ e => by cases e) (fun _ _ _ e => by cases e)
    · show some (s.seen tx).rows = s.table
      rw [hseen, hq.1, hR, List.append_nil]
      simp [State.rows, hR]
    · show s.log ++ tx.ran = s.log
      rw [hran, hu]; simp
  · refine h.commit i (N := (s.seen tx).rows) rfl rfl rfl hch ?_
      (fun j q hne hj => (h.excl i j _ q (Ne.symm hne) hp hj).resolve_left hq) ?_
    · show Replay _ (s.log ++ tx.ran) ((s.seen tx).rows.map Row.version)
      refine h.replay.append ?_
      rw [hran, ← hrec.1]
      cases hl' : s.recorded.getLast? with
      | none => exact absurd (List.getLast?_eq_none_iff.1 hl') hrec.2
      | some top =>
        refine replay_ups hl' ?_ ?_
        · have := hch.linked
          rw [← hrec.1, Linked.append, hl'] at this
          exact this.2
        · rw [hrec.1, List.map_map]
          exact (hi.fits i _ hp).nodup
    · intro j q t' _ _ _ v hv
      rw [hseen, List.map_append]
      exact List.mem_append_left _ hv

theorem Ser.commitDown {L : Version → Prop} {s : State} (hi : Inv s) (hl : LogInv s) (h : Ser L s)
    (hone : OneDown s) {i : Nat} {c : Cmd} {tx : Tx} (hp : s.procs i = some ⟨c, .reverting [], tx⟩) :
    Ser L { s.put i none with table := some (s.seen tx).rows, log := s.log ++ tx.ran } := by
  cases c with
  | up d t => rcases (hl.up i _ d t hp rfl).pc with h | h | ⟨_, h⟩ | ⟨_, _, h⟩ <;> cases h
  | down t =>
  have hg := h.down i _ t hp rfl
  have hcf : tx.created = false := by
    cases hc : tx.created with
    | false => rfl
    | true => rcases (hg.fresh hc).2.2 with e | e | ⟨_, e⟩ | e <;> cases e
  obtain ⟨R, ht⟩ := started hi hp (by simp) hcf
  have hrows : s.rows = R := by unfold State.rows; rw [ht]; rfl
  have hch := h.base R ht
  obtain ⟨R', seg, h1, h2, h3, h4⟩ := hg.removed hcf
  have h2 : tx.removed = seg.map nm := h2
  have h3 : tx.ran = seg.reverse.map (fun r => .down r.version) := by simpa [Pc.undone] using h3
  have ha : tx.added = [] := hg.added hcf
  have hR' : R' ≠ [] := h4 (by rw [hrows]; obtain ⟨rest, e⟩ := hch.head; rw [e]; simp)
  have hnd := hi.nodup
  have hseen : (s.seen tx).rows = R' := by
    show (s.rows.filter fun r => !tx.removed.contains r.version.name) ++ tx.added = R'
    rw [ha, h2, List.append_nil, h1]
    rw [h1] at hnd
    exact filter_seg hnd
  by_cases hseg : seg = []
  · subst hseg
    refine h.update i none ?_ ?_ (.inl (Nat.le_refl _)) rfl (fun _ _ _ e => by cases e)
      (fun _ _ e => by cases e) (fun _ _ _ e => by cases e)
    · show some (s.seen tx).rows = s.table
      rw [hseen, ht, ← hrows, h1, List.append_nil]
    · show s.log ++ tx.ran = s.log
      rw [h3]; simp
  · have hq : ¬ tx.quiet := by
      rintro ⟨_, e⟩
      rw [h2] at e
      exact hseg (List.map_eq_nil_iff.1 e)
    refine h.commit i (N := (s.seen tx).rows) rfl rfl rfl ?_ ?_
      (fun j q hne hj => (h.excl i j _ q (Ne.symm hne) hp hj).resolve_left hq) ?_
    · rw [hseen]
      rw [← hrows, h1] at hch
      exact hch.prefix hR'
    · show Replay _ (s.log ++ tx.ran) ((s.seen tx).rows.map Row.version)
      refine h.replay.append ?_
      have e : s.recorded = R'.map Row.version ++ seg.map Row.version := by
        rw [← List.map_append, ← h1, hrows]; simp [State.recorded, ht]
      rw [e, hseen, h3]
      have := @replay_downs (seg.map Row.version) (R'.map Row.version)
      rw [← List.map_reverse, List.map_map] at this
      exact this
    · intro j q t' hne hj hc
      exact absurd (hone j i q _ t' t hj hp hc rfl) hne

/-- What a `down` that has created the metadata schema sees. -/
theorem fresh_seen {s : State} (hi : Inv s) {i : Nat} {p : Proc} (hp : s.procs i = some p)
    (hg : GoodDown s p) (hc : p.tx.created = true) : (s.seen p.tx).rows = [⟨Version.newInit, 1⟩] := by
  have ht := hi.created i p hp hc
  obtain ⟨h1, h2, _⟩ := hg.fresh hc
  rw [seen_quiet h2, h1]
  simp [State.rows, ht]

/-- What another `down` sees is committed. -/
theorem down_seen {s : State} {p : Proc} (hg : GoodDown s p) (hc : p.tx.created = false) {r : Row}
    (hr : r ∈ (s.seen p.tx).rows) : r ∈ s.rows ∧ nm r ∉ p.tx.removed := by
  rcases mem_seen.1 hr with hr | hr
  · exact hr
  · rw [hg.added hc] at hr; cases hr

theorem Ser.step {L : Version → Prop} (ho : OneLine L) {s s' : State} (hi : Inv s) (hl : LogInv s)
    (h : Ser L s) (huse : UsesOnly L s) (hone : OneDown s) (hs : Step s s') : Ser L s' := by
  -- a process that only reads
  have move : ∀ {i : Nat} {p : Proc} (pc' : Pc), s.procs i = some p → 
      (∀ d t, p.cmd = .up d t → GoodUp L s d t ⟨p.cmd, pc', p.tx⟩) →
      (∀ t, p.cmd = .down t → GoodDown s ⟨p.cmd, pc', p.tx⟩) →
      Ser L (s.put i (some ⟨p.cmd, pc', p.tx⟩)) := by
    intro i p pc' hp hu hd
    refine h.update i _ rfl rfl (.inl (Nat.le_refl _)) rfl ?_ ?_ ?_
    · rintro q d t e hc
      cases e
      exact GoodUp.congr (s := s) (s' := s.put i _) rfl (Nat.le_refl _) (hu d t hc)
    · rintro q t e hc
      cases e
      exact hd t hc
    · rintro q j r e hne hj
      cases e
      exact h.excl i j p r (Ne.symm hne) hp hj
  -- a `down` that only reads
  have movedown : ∀ {i : Nat} {p : Proc} (pc' : Pc), s.procs i = some p → p.pc.undone = [] → pc'.undone = [] →
      (∀ d t, p.cmd ≠ .up d t) → (∀ v ns, pc' ≠ .reverted v ns) →
      (∀ t, p.cmd = .down t → p.tx.created = true →
        (pc' = .opened ∨ pc' = .current Version.newInit ∨ (∃ to, pc' = .ordered 1 to) ∨ pc' = .bounded 1 1)) →
      (∀ t, p.cmd = .down t → ∀ f o, pc' = .bounded f o → 1 ≤ o) →
      (∀ t, p.cmd = .down t → ∀ ns, pc' = .reverting ns → "init" ∉ ns) →
      Ser L (s.put i (some ⟨p.cmd, pc', p.tx⟩)) := by
    intro i p pc' hp e1 e2 hnu hnr hf hb hr
    refine move pc' hp (fun d t hc => absurd hc (hnu d t)) (fun t hc => ?_)
    have hg := h.down i p t hp hc
    refine ⟨fun hcr => ⟨(hg.fresh hcr).1, (hg.fresh hcr).2.1, hf t hc hcr⟩, hg.added, fun hcf => ?_, hb t hc, hr t hc,
      fun v ns e => absurd e (hnr v ns)⟩
    obtain ⟨R', seg, h1, h2, h3, h4⟩ := hg.removed hcf
    refine ⟨R', seg, h1, h2, ?_, h4⟩
    simpa [e1, e2] using h3
  have nup : ∀ {i : Nat} {p : Proc}, s.procs i = some p → p.pc ≠ .start → p.pc ≠ .opened →
      (∀ ns, p.pc ≠ .applying ns) → (∀ v ns, p.pc ≠ .applied v ns) → ∀ d t, p.cmd ≠ .up d t := by
    intro i p hp a b c e d t hc
    rcases (hl.up i _ d t hp hc).pc with h | h | ⟨_, h⟩ | ⟨_, _, h⟩
    · exact a h
    · exact b h
    · exact c _ h
    · exact e _ _ h
  cases hs with
  | begin i c hn =>
    refine h.update i _ rfl rfl (.inl (Nat.le_refl _)) rfl ?_ ?_ ?_
    · rintro p d t e hc
      cases e
      exact ⟨.inl rfl, fun _ e => (by cases e), fun _ _ e => (by cases e)⟩
    · rintro p t e hc
      cases e
      exact ⟨fun e => (by cases e), fun _ => rfl, fun _ => ⟨s.rows, [], by simp, rfl, rfl, id⟩,
        fun _ _ e => (by cases e), fun _ e => (by cases e), fun _ _ e => (by cases e)⟩
    · rintro p j q e _ _
      cases e
      exact .inl ⟨rfl, rfl⟩
  | leave i =>
    exact h.update i none rfl rfl (.inl (Nat.le_refl _)) rfl (fun _ _ _ e => by cases e)
      (fun _ _ e => by cases e) (fun _ _ _ e => by cases e)
  | @create i c tx hp hn hfree =>
    have hst : ∀ j q, j ≠ i → s.procs j = some q → q.pc = .start :=
      fun j q hne hj => hi.absent hn j q hj (hfree j q hne hj)
    refine h.update i _ rfl rfl (.inr ⟨hn, hst⟩) rfl ?_ ?_ ?_
    · rintro p d t e hc
      cases e
      refine ⟨.inr ?_, fun _ e => (by cases e), fun _ _ e => (by cases e)⟩
      have e : s.rows = [] := by unfold State.rows; rw [hn]; rfl
      show Chain L ((s.rows.filter _) ++ [⟨Version.newInit, 1⟩]) 2
      rw [e]
      refine ⟨⟨[], rfl⟩, ⟨rfl, trivial⟩, by simp, ?_, ?_⟩
      · intro r hr; simp only [List.filter_nil, List.nil_append, List.mem_singleton] at hr; subst hr; decide
      · intro r hr; simp only [List.filter_nil, List.nil_append, List.mem_singleton] at hr; subst hr; exact .inl rfl
    · rintro p t e hc
      cases e
      exact ⟨fun _ => ⟨rfl, rfl, .inl rfl⟩, fun e => (by cases e), fun e => (by cases e),
        fun _ _ e => (by cases e), fun _ e => (by cases e), fun _ _ e => (by cases e)⟩
    · rintro p j q e hne hj
      exact .inr (start_quiet hi hj (hst j q hne hj))
  | @exists_ i c tx rows hp ht =>
    have e := hi.start i _ hp rfl
    simp only at e
    subst e
    refine move .opened hp ?_ ?_
    · intro d t hc
      refine ⟨.inr ?_, fun _ e => (by cases e), fun _ _ e => (by cases e)⟩
      rw [seen_quiet rfl]
      show Chain L (s.rows ++ []) s.next
      rw [List.append_nil, show s.rows = rows by unfold State.rows; rw [ht]; rfl]
      exact h.base rows ht
    · intro t hc
      exact ⟨fun e => (by cases e), fun _ => rfl, fun _ => ⟨s.rows, [], by simp, rfl, rfl, id⟩,
        fun _ _ e => (by cases e), fun _ e => (by cases e), fun _ _ e => (by cases e)⟩
  | @plan i d target tx current opened to names fuel hp _ hop hto hr _ =>
    refine move (.applying names) hp ?_ (fun t e => by cases e)
    intro d' t' e
    cases e
    have hg := h.up i _ d target hp rfl
    refine ⟨.inr (hg.chain.resolve_left (by simp)), fun ns e => ?_, fun _ _ e => (by cases e)⟩
    cases e
    have hn := (huse i _ d target hp rfl).1
    have e := hn.storedNames _ _ (stored_iff.2 hto)
    refine range_follows hn ?_ hr
    cases target with
    | some b => rw [e]; exact .inl rfl
    | none => rw [e]; exact .inr ⟨rfl, fuel, opened.nextMap, hop⟩
  | @runUp i d target tx n ns v hp hv =>
    have hg := h.up i _ d target hp rfl
    have ha := hg.applying _ rfl
    refine h.update i _ rfl rfl (.inl (Nat.le_refl _)) rfl ?_ (fun p t e hc => by cases e; cases hc) ?_
    · rintro p d' t' e hc
      cases e
      cases hc
      refine ⟨.inr ?_, fun _ e => (by cases e), fun w ms e => ?_⟩
      · exact hg.chain.resolve_left (by simp)
      · cases e
        have hm := ha n (by simp) v hv
        exact ⟨⟨(huse i _ d target hp rfl).2 v hm, by obtain ⟨_, _, _, h, _⟩ := hm; exact h⟩,
          fun m hm => ha m (List.mem_cons_of_mem _ hm)⟩
    · rintro q j r e hne hj
      cases e
      have := h.excl i j _ r (Ne.symm hne) hp hj
      exact this
  | @saveUp i c tx v ns hp hfree hadm _ => exact h.saveUp ho hi hl hp hfree hadm
  | refused i hp =>
    exact h.update i none rfl rfl (.inl (Nat.le_succ _)) rfl (fun _ _ _ e => by cases e)
      (fun _ _ e => by cases e) (fun _ _ _ e => by cases e)
  | commitUp i hp => exact h.commitUp hi hl hp
  | @readCurrent i target tx current hp hcur _ =>
    refine movedown (p := ⟨_, .opened, tx⟩) (.current current) hp rfl rfl (fun _ _ e => by cases e) (by simp) ?_
      (fun _ _ _ _ e => by cases e) (fun _ _ _ e => by cases e)
    intro t hc hcr
    have := fresh_seen hi hp (h.down i _ t hp hc) hcr
    right; left
    unfold VTable.current at hcur
    simp only at this
    rw [this] at hcur
    simp only [List.foldl_cons, List.foldl_nil, Pg.newer, Option.map_some, Option.some.injEq] at hcur
    rw [hcur]
  | @orderFrom i target tx current f hp hf =>
    refine movedown (p := ⟨_, .current current, tx⟩) (.ordered f _) hp rfl rfl (fun _ _ e => by cases e) (by simp) ?_
      (fun _ _ _ _ e => by cases e) (fun _ _ _ e => by cases e)
    intro t hc hcr
    have hs := fresh_seen hi hp (h.down i _ t hp hc) hcr
    obtain ⟨r, hr, e⟩ := order_mem hf
    rw [hs] at hr
    simp only [List.mem_singleton] at hr
    subst hr
    subst e
    exact .inr (.inr (.inl ⟨_, rfl⟩))
  | @orderTo i c tx f to o hp hf =>
    refine movedown (p := ⟨c, .ordered f to, tx⟩) (.bounded f o) hp rfl rfl
      (nup hp (by simp) (by simp) (by simp) (by simp)) (by simp) ?_ ?_ (fun _ _ _ e => by cases e)
    · intro t hc hcr
      have hg := h.down i _ t hp hc
      have hs := fresh_seen hi hp hg hcr
      obtain ⟨r, hr, e⟩ := order_mem hf
      rw [hs] at hr
      simp only [List.mem_singleton] at hr
      subst hr
      subst e
      rcases (hg.fresh hcr).2.2 with e | e | ⟨_, e⟩ | e <;> cases e
      exact .inr (.inr (.inr rfl))
    · intro t hc f' o' e
      cases e
      have hg := h.down i _ t hp hc
      obtain ⟨r, hr, e⟩ := order_mem hf
      subst e
      cases hcr : tx.created with
      | true =>
        rw [fresh_seen hi hp hg hcr] at hr
        simp only [List.mem_singleton] at hr
        subst hr
        exact Nat.le_refl _
      | false =>
        obtain ⟨R, ht⟩ := started hi hp (by simp) hcr
        refine (h.base R ht).one_le r ?_
        have := (down_seen hg hcr hr).1
        rwa [show s.rows = R by unfold State.rows; rw [ht]; rfl] at this
  | @range i c tx f o hp hne =>
    have hb : ∀ t, c = .down t → 1 ≤ o := fun t hc => (h.down i _ t hp hc).bounded f o rfl
    have hcf : ∀ t, c = .down t → tx.created = true → False := by
      intro t hc hcr
      have hs := fresh_seen hi hp (h.down i _ t hp hc) hcr
      apply hne
      cases hbt : between (s.seen tx) f o with
      | nil => rfl
      | cons n l =>
        obtain ⟨r, hr, _, hlt⟩ := between_mem (t := s.seen tx) (f := f) (o := o) (n := n) (by rw [hbt]; simp)
        rw [hs] at hr
        simp only [List.mem_singleton] at hr
        subst hr
        exact absurd (hb t hc) (by simp only at hlt; omega)
    refine movedown (p := ⟨c, .bounded f o, tx⟩) (.reverting _) hp rfl rfl
      (nup hp (by simp) (by simp) (by simp) (by simp)) (by simp) (fun t hc hcr => (hcf t hc hcr).elim)
      (fun _ _ _ _ e => by cases e) ?_
    intro t hc ns e
    cases e
    intro hm
    obtain ⟨r, hr, hn, hlt⟩ := between_mem hm
    cases hcr : tx.created with
    | true => exact hcf t hc hcr
    | false =>
      obtain ⟨R, ht⟩ := started hi hp (by simp) hcr
      have hmem := (down_seen (h.down i _ t hp hc) hcr hr).1
      have e : s.rows = R := by unfold State.rows; rw [ht]; rfl
      have hnd := hi.nodup
      rw [e] at hmem hnd
      have := (h.base R ht).init_row hnd hmem hn
      have := hb t hc
      omega
  | @runDown i c tx n ns v hp hv =>
    refine h.update i _ rfl rfl (.inl (Nat.le_refl _)) rfl ?_ ?_ ?_
    · rintro q d t e hc
      cases e
      exact absurd hc (nup hp (by simp) (by simp) (by simp) (by simp) d t)
    · rintro q t e hc
      cases e
      have hg := h.down i _ t hp hc
      have hcf : tx.created = false := by
        cases hcr : tx.created with
        | false => rfl
        | true => rcases (hg.fresh hcr).2.2 with e | e | ⟨_, e⟩ | e <;> cases e
      have hni := hg.reverting _ rfl
      obtain ⟨hn, r, hr, hrv⟩ := getVersion_mem hv
      obtain ⟨hm, hnr⟩ := down_seen hg hcf hr
      obtain ⟨R', seg, h1, h2, h3, h4⟩ := hg.removed hcf
      refine ⟨fun e => ?_, hg.added, fun _ => ⟨R', seg, h1, h2, ?_, h4⟩, fun _ _ e => (by cases e),
        fun _ e => (by cases e), fun w ms e => ?_⟩
      · rw [show tx.created = true from e] at hcf; cases hcf
      · show tx.ran ++ [.down v] = _
        rw [show tx.ran = _ from h3]
        simp [Pc.undone]
      · cases e
        refine ⟨List.mem_map.2 ⟨r, hm, hrv⟩, ?_, ?_, fun hm => hni (List.mem_cons_of_mem _ hm)⟩
        · rw [← hrv]; exact hnr
        · rw [hn]; intro e; exact hni (by simp [e])
    · rintro q j r e hne hj
      cases e
      have := h.excl i j _ r (Ne.symm hne) hp hj
      exact this
  | @deleteDown i c tx v ns hp hfree hdel => exact h.deleteDown hi hl hone hp hfree hdel
  | commitDown i hp => exact h.commitDown hi hl hone hp

theorem Runs.ser {L : Version → Prop} (ho : OneLine L) {s : State}
    (h : Runs (fun s => UsesOnly L s ∧ OneDown s) s) : Ser L s ∧ UsesOnly L s ∧ OneDown s := by
  induction h with
  | new =>
    refine ⟨Ser.new, ?_, ?_⟩
    · intro i p d t e; cases e
    · intro i j p q t u e; cases e
  | step hr hs hok ih =>
    obtain ⟨h1, h2⟩ := hr.inv
    exact ⟨ih.1.step ho h1 h2 ih.2.1 ih.2.2 hs, hok⟩

theorem Runs.mono {ok ok' : State → Prop} (hm : ∀ s, ok s → ok' s) {s : State} (h : Runs ok s) : Runs ok' s := by
  induction h with
  | new => exact .new
  | step _ hs hok ih => exact .step ih hs (hm _ hok)

/-- Without `down` commands only up scripts are run. -/
theorem Runs.ups {s : State} (h : Runs NoDown s) : NoDown s ∧ ∃ vs : List Version, s.log = vs.map .up := by
  induction h with
  | new => exact ⟨fun i p t e => (by cases e), [], rfl⟩
  | @step s s' hr hs hok ih =>
    refine ⟨hok, ?_⟩
    obtain ⟨vs, ih⟩ := ih.2
    have hl := hr.inv.2
    have hnd := ‹NoDown s ∧ _›.1
    cases hs with
    | @commitUp i c tx hp =>
      cases c with
      | down t => exact absurd rfl (hnd i _ t hp)
      | up d t =>
        obtain ⟨ups, _, hran⟩ := (hl.up i _ d t hp rfl).ran
        simp only [Pc.pending, List.append_nil] at hran
        exact ⟨vs ++ ups, by show s.log ++ tx.ran = _; rw [ih, hran, List.map_append]⟩
    | @commitDown i c tx hp =>
      cases c with
      | down t => exact absurd rfl (hnd i _ t hp)
      | up d t => rcases (hl.up i _ d t hp rfl).pc with h | h | ⟨_, h⟩ | ⟨_, _, h⟩ <;> cases h
    | _ => exact ⟨vs, ih⟩

theorem Replay.of_ups {vs : List Version} : ∀ {l l' : List Version}, Replay l (vs.map .up) l' → l' = l ++ vs := by
  induction vs with
  | nil => intro l l' h; cases h; simp
  | cons v vs ih =>
    intro l l' h
    obtain ⟨_, _, _, _, h⟩ := Replay.up_inv h
    rw [ih h]; simp

end Conc
end Podo
