import Verif.Model.Wire
import Verif.Spec.Wild
import Verif.Spec.Repair
import Verif.Proofs.Pg
import Verif.Proofs.Program
import Verif.Spec.Wire
/-
Helper lemmas for C102.
-/
namespace Podo
namespace Pg
variable {σ : Type} {B : Behaviour σ}

theorem execOver_some {k k' : Nat} {s s' : σ} {qs : List String} :
    execOver B k s qs = some (k', s') ↔ execAll B s qs = some s' ∧ k = k' + qs.length := by
  induction qs generalizing k s with
  | nil =>
    simp only [execOver, execAll, Option.some.injEq, Prod.mk.injEq, List.length_nil, Nat.add_zero]
    exact ⟨fun ⟨a, b⟩ => ⟨b, a⟩, fun ⟨a, b⟩ => ⟨b, a⟩⟩
  | cons q qs ih =>
    cases k with
    | zero =>
      simp only [execOver, List.length_cons]
      constructor
      · intro h; cases h
      · rintro ⟨_, h⟩; omega
    | succ k =>
      simp only [execOver, execAll, List.length_cons]
      cases B.exec s q with
      | none => simp
      | some s₁ =>
        dsimp only
        rw [ih]
        constructor
        · rintro ⟨a, b⟩; exact ⟨a, by omega⟩
        · rintro ⟨a, b⟩; exact ⟨a, by omega⟩

theorem execOver_none {k : Nat} {s : σ} {qs : List String} (h : execAll B s qs = none) : execOver B k s qs = none := by
  cases h' : execOver B k s qs with
  | none => rfl
  | some r =>
    obtain ⟨k', s'⟩ := r
    rw [(execOver_some.1 h').1] at h
    cases h

theorem ensureOver_cases {k k' : Nat} {db : DB σ} {m : Meta} {ok : Bool} (h : ensureOver B k db = (m, ok, k')) :
    ensureInitialized B db = (m, ok) ∨ (ok = false ∧ db.rollback m = db) := by
  obtain ⟨m', s⟩ := db
  cases k with
  | zero =>
    unfold ensureOver at h
    cases h
    exact .inr ⟨rfl, by cases m' <;> rfl⟩
  | succ k =>
    cases m' with
    | absent =>
      match k, h with
      | 0, h => cases h; exact .inr ⟨rfl, rfl⟩
      | 1, h => cases h; exact .inr ⟨rfl, rfl⟩
      | 2, h => cases h; exact .inr ⟨rfl, rfl⟩
      | k + 3, h =>
        left
        simp only [ensureOver] at h
        simp only [ensureInitialized]
        split at h
        · next hc => rw [if_pos hc]; cases h; rfl
        · next hc => rw [if_neg hc]; cases h; rfl
    | noTable => cases h; exact .inl rfl
    | table t => cases h; exact .inl rfl

theorem ensureOver_enough (B : Behaviour σ) (db : DB σ) : ∃ n, ∀ k,
    ensureOver B (n + k) db = ((ensureInitialized B db).1, (ensureInitialized B db).2, k) := by
  obtain ⟨m', s⟩ := db
  cases m' with
  | absent =>
    refine ⟨4, fun k => ?_⟩
    rw [show 4 + k = (k + 3) + 1 by omega]
    simp only [ensureOver, ensureInitialized]
    split <;> rfl
  | noTable => exact ⟨1, fun k => by rw [Nat.add_comm]; rfl⟩
  | table t => exact ⟨1, fun k => by rw [Nat.add_comm]; rfl⟩

theorem upLoopOver_cases {arrived : Bool} {d : HDir} {ns : List String} {k k' : Nat} {t t' : VTable} {s s' : σ}
    {o : Outcome} (h : upLoopOver B arrived d k ns t s = (t', s', o, k')) :
    upLoop B d ns t s = (t', s', o) ∨ (o = .panic ∧ UpTo B d ns t s t') := by
  induction ns generalizing k t s with
  | nil => cases h; exact .inl rfl
  | cons n ns ih =>
    unfold upLoopOver at h
    unfold upLoop
    cases hv : d.getVersion n with
    | error e => rw [hv] at h; cases h; exact .inl rfl
    | ok v =>
      rw [hv] at h
      dsimp only at h ⊢
      cases hx : execOver B k s v.up with
      | none =>
        rw [hx] at h
        cases h
        exact .inr ⟨rfl, .here⟩
      | some r =>
        obtain ⟨j, s₁⟩ := r
        obtain ⟨h1, h2⟩ := execOver_some.1 hx
        rw [hx] at h
        rw [h1]
        dsimp only
        rcases hi : t.insert B v with ⟨t₁, ok⟩
        cases j with
        | zero =>
          dsimp only at h
          cases h
          refine .inr ⟨rfl, ?_⟩
          cases arrived with
          | false => exact .here
          | true =>
            rw [if_pos rfl, hi]
            cases ok with
            | false => exact .refused hv h1 hi
            | true => exact .on hv h1 hi .here
        | succ j =>
          dsimp only at h
          rw [hi] at h
          cases ok with
          | false => cases h; exact .inl rfl
          | true =>
            dsimp only at h ⊢
            rcases ih h with h | ⟨ho, h⟩
            · exact .inl h
            · exact .inr ⟨ho, .on hv h1 hi h⟩

theorem upLoop_upTo {d : HDir} {ns : List String} {t t' : VTable} {s s' : σ} {o : Outcome}
    (h : upLoop B d ns t s = (t', s', o)) : UpTo B d ns t s t' := by
  induction ns generalizing t s with
  | nil => cases h; exact .here
  | cons n ns ih =>
    unfold upLoop at h
    cases hv : d.getVersion n with
    | error e => rw [hv] at h; cases h; exact .here
    | ok v =>
      rw [hv] at h
      dsimp only at h
      cases hx : execAll B s v.up with
      | none => rw [hx] at h; cases h; exact .here
      | some s₁ =>
        rw [hx] at h
        dsimp only at h
        rcases hi : t.insert B v with ⟨t₁, ok⟩
        rw [hi] at h
        cases ok with
        | false => cases h; exact .refused hv hx hi
        | true => exact .on hv hx hi (ih h)

theorem upLoopOver_enough (B : Behaviour σ) (arrived : Bool) (d : HDir) (ns : List String) (t : VTable) (s : σ) :
    ∃ n, ∀ k, ∃ k', upLoopOver B arrived d (n + k) ns t s = ((upLoop B d ns t s).1, (upLoop B d ns t s).2.1,
      (upLoop B d ns t s).2.2, k') ∧ ((upLoop B d ns t s).2.2 = .ok → k' = k) := by
  induction ns generalizing t s with
  | nil => exact ⟨0, fun k => ⟨k, by rw [Nat.zero_add]; rfl, fun _ => rfl⟩⟩
  | cons n ns ih =>
    unfold upLoop
    cases hv : d.getVersion n with
    | error e => exact ⟨0, fun k => ⟨_, by unfold upLoopOver; rw [hv], fun h => by cases h⟩⟩
    | ok v =>
      dsimp only
      cases hx : execAll B s v.up with
      | none =>
        exact ⟨0, fun k => ⟨_, by unfold upLoopOver; rw [hv]; dsimp only; rw [execOver_none hx],
          fun h => by cases h⟩⟩
      | some s₁ =>
        dsimp only
        rcases hi : t.insert B v with ⟨t₁, ok⟩
        cases ok with
        | false =>
          refine ⟨v.up.length + 1, fun k => ⟨k, ?_, fun h => by cases h⟩⟩
          unfold upLoopOver
          rw [hv]
          dsimp only
          rw [execOver_some (k' := k + 1) (s' := s₁) |>.2 ⟨hx, by omega⟩]
          dsimp only
          rw [hi]
        | true =>
          dsimp only
          obtain ⟨m, hm⟩ := ih t₁ s₁
          refine ⟨v.up.length + 1 + m, fun k => ?_⟩
          obtain ⟨k', h1, h2⟩ := hm k
          refine ⟨k', ?_, h2⟩
          conv => lhs; unfold upLoopOver
          rw [hv]
          dsimp only
          rw [execOver_some (k' := (m + k) + 1) (s' := s₁) |>.2 ⟨hx, by omega⟩]
          dsimp only
          rw [hi]
          dsimp only
          exact h1

theorem upOver_cases {arrived : Bool} {fuel k : Nat} {d : HDir} {target : Option String} {db db' : DB σ} {o : Outcome}
    (h : upOver B arrived fuel k d target db = some (db', o)) :
    up B fuel d target db = some (db', o) ∨
    (o ≠ .ok ∧ UpDies B d target db db' ∧ ∃ m, db' = db.rollback m) ∨
    (o = .error ∧ arrived = true ∧ up B fuel d target db = some (db', .ok)) := by
  have hself : ∃ m, db = db.rollback m := ⟨db.metaSchema, by obtain ⟨m, s⟩ := db; cases m <;> rfl⟩
  cases k with
  | zero => cases h; exact .inr (.inl ⟨by simp, .before, hself⟩)
  | succ k =>
    simp only [upOver] at h
    unfold up
    cases hopen : HDir.fromDir fuel d with
    | none => rw [hopen] at h; cases h
    | some r =>
      rw [hopen] at h
      cases r with
      | error e => cases h; exact .inl rfl
      | ok opened =>
        dsimp only at h ⊢
        rcases he : ensureOver B k db with ⟨m, ok, j⟩
        rw [he] at h
        rcases ensureOver_cases he with hi | ⟨rfl, hb⟩
        · rw [hi]
          cases ok with
          | false => cases h; exact .inl rfl
          | true =>
            cases m with
            | absent => cases h; exact .inl rfl
            | noTable => cases h; exact .inl rfl
            | table t =>
              dsimp only at h ⊢
              match j, h with
              | 0, h => cases h; exact .inr (.inl ⟨by simp, by rw [rollback_self hi]; exact .before, _, rfl⟩)
              | 1, h => cases h; exact .inr (.inl ⟨by simp, by rw [rollback_self hi]; exact .before, _, rfl⟩)
              | j + 2, h =>
                dsimp only at h
                cases hc : t.current with
                | none => rw [hc] at h; cases h; exact .inl rfl
                | some cur =>
                  rw [hc] at h
                  dsimp only at h ⊢
                  cases hto : d.getVersion (target.getD opened.currentVersion) with
                  | error e => rw [hto] at h; cases h; exact .inl rfl
                  | ok to =>
                    rw [hto] at h
                    dsimp only at h ⊢
                    cases hr : HDir.upwardRange fuel d cur.name to.name with
                    | none => rw [hr] at h; cases h
                    | some r =>
                      rw [hr] at h
                      cases r with
                      | error e => cases h; exact .inl rfl
                      | ok vs =>
                        cases vs with
                        | nil => cases h; exact .inl rfl
                        | cons n ns =>
                          dsimp only at h ⊢
                          rcases hl : upLoopOver B arrived d j (n :: ns) t db.data with ⟨t', s, o', k'⟩
                          rw [hl] at h
                          rcases upLoopOver_cases hl with hu | ⟨rfl, hu⟩
                          · rw [hu]
                            cases o' with
                            | ok =>
                              dsimp only at h ⊢
                              cases k' with
                              | zero =>
                                simp only [commitOver, Option.some.injEq, Prod.mk.injEq] at h
                                obtain ⟨rfl, rfl⟩ := h
                                cases ha : arrived && B.commits s with
                                | true =>
                                  rw [Bool.and_eq_true] at ha
                                  rw [if_pos ha.2, if_pos rfl]
                                  exact .inr (.inr ⟨rfl, ha.1, rfl⟩)
                                | false =>
                                  rw [if_neg (by simp : ¬ (false = true))]
                                  exact .inr (.inl ⟨by simp, .within hopen hi hc hto hr (upLoop_upTo hu), _, rfl⟩)
                              | succ k' =>
                                simp only [commitOver] at h
                                left
                                rw [← h]
                                split <;> rfl
                            | error => cases h; exact .inl rfl
                            | panic => cases h; exact .inl rfl
                          · cases h
                            exact .inr (.inl ⟨by simp, .within hopen hi hc hto hr hu, _, rfl⟩)
        · cases h
          exact .inr (.inl ⟨by simp, by rw [hb]; exact .before, _, rfl⟩)

/-- With enough exchanges all is as without a loss; with as many as there are but one, the commit is not heard of. -/
theorem upOver_enough {fuel : Nat} {d : HDir} {target : Option String} {db db' : DB σ} {o : Outcome} (arrived : Bool)
    (h : up B fuel d target db = some (db', o)) :
    (∃ n, ∀ k, n ≤ k → upOver B arrived fuel k d target db = some (db', o)) ∧
    (o = .ok → db' ≠ db → ∃ k, upOver B true fuel k d target db = some (db', .error)) := by
  unfold up at h
  obtain ⟨n₁, hn₁⟩ := ensureOver_enough B db
  cases hopen : HDir.fromDir fuel d with
  | none => rw [hopen] at h; cases h
  | some r =>
    rw [hopen] at h
    cases r with
    | error e =>
      cases h
      refine ⟨⟨1, fun k hk => ?_⟩, fun h => by cases h⟩
      obtain ⟨k, rfl⟩ := Nat.exists_eq_add_of_le' hk
      simp only [upOver, hopen]
    | ok opened =>
      dsimp only at h
      rcases hi : ensureInitialized B db with ⟨m, ok⟩
      rw [hi] at h
      simp only [hi] at hn₁
      have key : ∀ (arr : Bool) k, n₁ ≤ k → ok = false ∨ m = .absent ∨ m = .noTable →
          upOver B arr fuel (k + 1) d target db = some (db', o) := by
        intro arr k hk hm
        obtain ⟨k, rfl⟩ := Nat.exists_eq_add_of_le hk
        simp only [upOver, hopen, hn₁]
        cases ok with
        | false => exact h
        | true =>
          rcases hm with hm | rfl | rfl
          · cases hm
          · exact h
          · exact h
      have key' : (ok = false ∨ m = .absent ∨ m = .noTable) → (∃ n, ∀ k, n ≤ k → upOver B arrived fuel k d target db = some (db', o)) := by
        intro hm
        refine ⟨n₁ + 1, fun k hk => ?_⟩
        obtain ⟨k, rfl⟩ := Nat.exists_eq_add_of_le' (show 1 ≤ k by omega)
        exact key arrived k (by omega) hm
      cases ok with
      | false => cases h; exact ⟨key' (.inl rfl), fun h => by cases h⟩
      | true =>
        cases m with
        | absent => cases h; exact ⟨key' (.inr (.inl rfl)), fun h => by cases h⟩
        | noTable => cases h; exact ⟨key' (.inr (.inr rfl)), fun h => by cases h⟩
        | table t =>
          dsimp only at h
          have body : ∀ (arr : Bool) j, upOver B arr fuel (n₁ + (j + 2) + 1) d target db =
              match t.current with
              | none => some (db.rollback (.table t), .error)
              | some current =>
                match d.getVersion (target.getD opened.currentVersion) with
                | .error _ => some (db.rollback (.table t), .error)
                | .ok to =>
                  match HDir.upwardRange fuel d current.name to.name with
                  | none => none
                  | some (.error _) => some (db.rollback (.table t), .error)
                  | some (.ok []) => some (db.rollback (.table t), .ok)
                  | some (.ok (n :: ns)) =>
                    match upLoopOver B arr d j (n :: ns) t db.data with
                    | (t', s, .ok, k) => some (commitOver B arr db k t' s)
                    | (t', _, o, _) => some (db.rollback (.table t'), o) := by
            intro arr j
            simp only [upOver, hopen, hn₁]
            rfl
          have fin : ∀ {P : Nat → Prop}, (∃ n, ∀ j, n ≤ j → P (n₁ + (j + 2) + 1)) → ∃ n, ∀ k, n ≤ k → P k := by
            rintro P ⟨n, hn⟩
            refine ⟨n₁ + n + 3, fun k hk => ?_⟩
            have := hn (k - n₁ - 3) (by omega)
            rwa [show n₁ + (k - n₁ - 3 + 2) + 1 = k by omega] at this
          cases hc : t.current with
          | none =>
            rw [hc] at h
            cases h
            exact ⟨fin ⟨0, fun j _ => by rw [body, hc]⟩, fun h => by cases h⟩
          | some cur =>
            rw [hc] at h
            dsimp only at h
            cases hto : d.getVersion (target.getD opened.currentVersion) with
            | error e =>
              rw [hto] at h
              cases h
              exact ⟨fin ⟨0, fun j _ => by rw [body, hc]; dsimp only; rw [hto]⟩, fun h => by cases h⟩
            | ok to =>
              rw [hto] at h
              dsimp only at h
              cases hr : HDir.upwardRange fuel d cur.name to.name with
              | none => rw [hr] at h; cases h
              | some r =>
                rw [hr] at h
                cases r with
                | error e =>
                  cases h
                  exact ⟨fin ⟨0, fun j _ => by rw [body, hc]; dsimp only; rw [hto]; dsimp only; rw [hr]⟩,
                    fun h => by cases h⟩
                | ok vs =>
                  cases vs with
                  | nil =>
                    cases h
                    exact ⟨fin ⟨0, fun j _ => by rw [body, hc]; dsimp only; rw [hto]; dsimp only; rw [hr]⟩,
                      fun _ h => absurd (rollback_self hi) h⟩
                  | cons n ns =>
                    dsimp only at h
                    rcases hl : upLoop B d (n :: ns) t db.data with ⟨t', s, o'⟩
                    rw [hl] at h
                    have step : ∀ (arr : Bool) j, upOver B arr fuel (n₁ + (j + 2) + 1) d target db =
                        match upLoopOver B arr d j (n :: ns) t db.data with
                        | (t', s, .ok, k) => some (commitOver B arr db k t' s)
                        | (t', _, o, _) => some (db.rollback (.table t'), o) := by
                      intro arr j
                      rw [body, hc]
                      dsimp only
                      rw [hto]
                      dsimp only
                      rw [hr]
                    constructor
                    · obtain ⟨n₂, hn₂⟩ := upLoopOver_enough B arrived d (n :: ns) t db.data
                      refine fin ⟨n₂ + 1, fun j hj => ?_⟩
                      rw [step]
                      obtain ⟨k', h1, h2⟩ := hn₂ (j - n₂)
                      rw [show n₂ + (j - n₂) = j by omega] at h1
                      rw [h1, hl]
                      cases o' with
                      | ok =>
                        rw [hl] at h2
                        rw [h2 rfl, show j - n₂ = (j - n₂ - 1) + 1 by omega]
                        dsimp only at h ⊢
                        simp only [commitOver]
                        rw [← h]
                        split <;> rfl
                      | error => exact h
                      | panic => exact h
                    · intro ho hne
                      subst ho
                      obtain ⟨n₂, hn₂⟩ := upLoopOver_enough B true d (n :: ns) t db.data
                      refine ⟨n₁ + (n₂ + 2) + 1, ?_⟩
                      rw [step]
                      obtain ⟨k', h1, h2⟩ := hn₂ 0
                      rw [Nat.add_zero] at h1
                      rw [h1, hl]
                      cases o' with
                      | ok =>
                        rw [hl] at h2
                        rw [h2 rfl]
                        dsimp only at h ⊢
                        simp only [commitOver]
                        split at h
                        · next hcm => cases h; simp [hcm]
                        · cases h
                      | error => cases h
                      | panic => cases h

theorem downLoopOver_cases {ns : List String} {k k' : Nat} {t t' : VTable} {s s' : σ}
    {o : Outcome} (h : downLoopOver B k ns t s = (t', s', o, k')) :
    downLoop B ns t s = (t', s', o) ∨ (o = .panic ∧ DownTo B ns t s t') := by
  induction ns generalizing k t s with
  | nil => cases k <;> (cases h; exact .inl rfl)
  | cons n ns ih =>
    cases k with
    | zero => cases h; exact .inr ⟨rfl, .here⟩
    | succ k =>
      simp only [downLoopOver] at h
      unfold downLoop
      cases hv : t.getVersion n with
      | none => rw [hv] at h; cases h; exact .inl rfl
      | some v =>
        rw [hv] at h
        dsimp only at h ⊢
        cases hx : execOver B k s v.down with
        | none =>
          rw [hx] at h
          cases h
          exact .inr ⟨rfl, .here⟩
        | some r =>
          obtain ⟨j, s₁⟩ := r
          obtain ⟨h1, h2⟩ := execOver_some.1 hx
          rw [hx] at h
          rw [h1]
          dsimp only
          cases j with
          | zero => cases h; exact .inr ⟨rfl, .here⟩
          | succ j =>
            dsimp only at h
            cases hi : t.delete v with
            | none => rw [hi] at h; cases h; exact .inl rfl
            | some t₁ =>
              rw [hi] at h
              dsimp only at h ⊢
              rcases ih h with h | ⟨ho, h⟩
              · exact .inl h
              · exact .inr ⟨ho, .on hv h1 hi h⟩

theorem downLoop_downTo {ns : List String} {t t' : VTable} {s s' : σ} {o : Outcome}
    (h : downLoop B ns t s = (t', s', o)) : DownTo B ns t s t' := by
  induction ns generalizing t s with
  | nil => cases h; exact .here
  | cons n ns ih =>
    unfold downLoop at h
    cases hv : t.getVersion n with
    | none => rw [hv] at h; cases h; exact .here
    | some v =>
      rw [hv] at h
      dsimp only at h
      cases hx : execAll B s v.down with
      | none => rw [hx] at h; cases h; exact .here
      | some s₁ =>
        rw [hx] at h
        dsimp only at h
        cases hi : t.delete v with
        | none => rw [hi] at h; cases h; exact .here
        | some t₁ => rw [hi] at h; exact .on hv hx hi (ih h)

theorem downLoopOver_enough (B : Behaviour σ) (ns : List String) (t : VTable) (s : σ) :
    ∃ n, ∀ k, ∃ k', downLoopOver B (n + k) ns t s = ((downLoop B ns t s).1, (downLoop B ns t s).2.1,
      (downLoop B ns t s).2.2, k') ∧ ((downLoop B ns t s).2.2 = .ok → k' = k) := by
  induction ns generalizing t s with
  | nil => exact ⟨0, fun k => ⟨k, by rw [Nat.zero_add]; cases k <;> rfl, fun _ => rfl⟩⟩
  | cons n ns ih =>
    unfold downLoop
    cases hv : t.getVersion n with
    | none =>
      exact ⟨1, fun k => ⟨_, by rw [Nat.add_comm]; simp only [downLoopOver]; rw [hv], fun h => by cases h⟩⟩
    | some v =>
      dsimp only
      cases hx : execAll B s v.down with
      | none =>
        exact ⟨1, fun k => ⟨_, by
          rw [Nat.add_comm]; simp only [downLoopOver]; rw [hv]; dsimp only; rw [execOver_none hx],
          fun h => by cases h⟩⟩
      | some s₁ =>
        dsimp only
        cases hi : t.delete v with
        | none =>
          refine ⟨v.down.length + 2, fun k => ⟨k, ?_, fun h => by cases h⟩⟩
          rw [show v.down.length + 2 + k = (v.down.length + 1 + k) + 1 by omega]
          simp only [downLoopOver]
          rw [hv]
          dsimp only
          rw [execOver_some (k' := k + 1) (s' := s₁) |>.2 ⟨hx, by omega⟩]
          dsimp only
          rw [hi]
        | some t₁ =>
          dsimp only
          obtain ⟨m, hm⟩ := ih t₁ s₁
          refine ⟨v.down.length + 2 + m, fun k => ?_⟩
          obtain ⟨k', h1, h2⟩ := hm k
          refine ⟨k', ?_, h2⟩
          rw [show v.down.length + 2 + m + k = (v.down.length + 1 + m + k) + 1 by omega]
          conv => lhs; simp only [downLoopOver]
          rw [hv]
          dsimp only
          rw [execOver_some (k' := (m + k) + 1) (s' := s₁) |>.2 ⟨hx, by omega⟩]
          dsimp only
          rw [hi]
          dsimp only
          exact h1

/-- `down` once the version to go back to is known. -/
def downTo (B : Behaviour σ) (db : DB σ) (t : VTable) (source to : String) : DB σ × Outcome :=
  match t.downwardRange source to with
  | none => (db.rollback (.table t), .error)
  | some [] => (db.rollback (.table t), .ok)
  | some versions =>
    match downLoop B versions t db.data with
    | (t', s, .ok) =>
      if B.commits s then (⟨.table t', s⟩, .ok)
      else (db.rollback (.table t'), .error)
    | (t', _, o) => (db.rollback (.table t'), o)

theorem downToOver_cases {arrived : Bool} {k : Nat} {target : Option String} {db db' : DB σ} {o : Outcome} {t : VTable}
    {cur : Version} (hi : ensureInitialized B db = (.table t, true)) (hc : t.current = some cur)
    (h : downToOver B arrived db k t cur.name (target.getD (cur.previous.getD "")) = (db', o)) :
    downTo B db t cur.name (target.getD (cur.previous.getD "")) = (db', o) ∨
    (o ≠ .ok ∧ DownDies B target db db' ∧ ∃ m, db' = db.rollback m) ∨
    (o = .error ∧ arrived = true ∧ downTo B db t cur.name (target.getD (cur.previous.getD "")) = (db', .ok)) := by
  unfold downTo
  match k, h with
  | 0, h => cases h; exact .inr (.inl ⟨by simp, by rw [rollback_self hi]; exact .before, _, rfl⟩)
  | 1, h => cases h; exact .inr (.inl ⟨by simp, by rw [rollback_self hi]; exact .before, _, rfl⟩)
  | 2, h => cases h; exact .inr (.inl ⟨by simp, by rw [rollback_self hi]; exact .before, _, rfl⟩)
  | j + 3, h =>
    simp only [downToOver] at h
    cases hr : t.downwardRange cur.name (target.getD (cur.previous.getD "")) with
    | none => rw [hr] at h; cases h; exact .inl rfl
    | some vs =>
      rw [hr] at h
      cases vs with
      | nil => cases h; exact .inl rfl
      | cons n ns =>
        dsimp only at h ⊢
        rcases hl : downLoopOver B j (n :: ns) t db.data with ⟨t', s, o', k'⟩
        rw [hl] at h
        rcases downLoopOver_cases hl with hu | ⟨rfl, hu⟩
        · rw [hu]
          cases o' with
          | ok =>
            dsimp only at h ⊢
            cases k' with
            | zero =>
              simp only [commitOver, Prod.mk.injEq] at h
              obtain ⟨rfl, rfl⟩ := h
              cases ha : arrived && B.commits s with
              | true =>
                rw [Bool.and_eq_true] at ha
                rw [if_pos ha.2, if_pos rfl]
                exact .inr (.inr ⟨rfl, ha.1, rfl⟩)
              | false =>
                rw [if_neg (by simp : ¬ (false = true))]
                exact .inr (.inl ⟨by simp, .within hi hc hr (downLoop_downTo hu), _, rfl⟩)
            | succ k' =>
              simp only [commitOver] at h
              exact .inl h
          | error => cases h; exact .inl rfl
          | panic => cases h; exact .inl rfl
        · cases h
          exact .inr (.inl ⟨by simp, .within hi hc hr hu, _, rfl⟩)

theorem down_goes_to {target : Option String} {db : DB σ} {t : VTable} {cur : Version}
    (hi : ensureInitialized B db = (.table t, true)) (hc : t.current = some cur)
    (hne : ¬ (target = none ∧ cur.previous = none)) :
    down B target db = downTo B db t cur.name (target.getD (cur.previous.getD "")) := by
  unfold down downTo
  rw [hi]
  dsimp only
  rw [hc]
  dsimp only
  cases target with
  | none =>
    cases hp : cur.previous with
    | none => exact absurd ⟨rfl, hp⟩ hne
    | some p => rfl
  | some n => rfl

theorem downOver_to {arrived : Bool} {k j : Nat} {target : Option String} {db : DB σ} {t : VTable} {cur : Version}
    (he : ensureOver B k db = (.table t, true, j + 2)) (hc : t.current = some cur)
    (hne : ¬ (target = none ∧ cur.previous = none)) :
    downOver B arrived (k + 1) target db =
      downToOver B arrived db j t cur.name (target.getD (cur.previous.getD "")) := by
  simp only [downOver]
  rw [he]
  dsimp only
  rw [hc]
  dsimp only
  cases target with
  | none =>
    cases hp : cur.previous with
    | none => exact absurd ⟨rfl, hp⟩ hne
    | some p => rfl
  | some n => rfl

theorem downOver_cases {arrived : Bool} {k : Nat} {target : Option String} {db db' : DB σ} {o : Outcome}
    (h : downOver B arrived k target db = (db', o)) :
    down B target db = (db', o) ∨
    (o ≠ .ok ∧ DownDies B target db db' ∧ ∃ m, db' = db.rollback m) ∨
    (o = .error ∧ arrived = true ∧ down B target db = (db', .ok)) := by
  have hself : ∃ m, db = db.rollback m := ⟨db.metaSchema, by obtain ⟨m, s⟩ := db; cases m <;> rfl⟩
  cases k with
  | zero => cases h; exact .inr (.inl ⟨by simp, .before, hself⟩)
  | succ k =>
    rcases he : ensureOver B k db with ⟨m, ok, j⟩
    rcases ensureOver_cases he with hi | ⟨rfl, hb⟩
    · cases ok with
      | false => left; simp only [downOver, he] at h; simp only [down, hi]; exact h
      | true =>
        cases m with
        | absent => left; simp only [downOver, he] at h; simp only [down, hi]; exact h
        | noTable => left; simp only [downOver, he] at h; simp only [down, hi]; exact h
        | table t =>
          have early : j < 2 → downOver B arrived (k + 1) target db = (db.rollback (.table t), .error) := by
            intro hj
            simp only [downOver]
            rw [he]
            dsimp only
            split
            · omega
            · rfl
          by_cases hj : j < 2
          · rw [early hj] at h
            cases h
            exact .inr (.inl ⟨by simp, by rw [rollback_self hi]; exact .before, _, rfl⟩)
          · obtain ⟨j, rfl⟩ := Nat.exists_eq_add_of_le' (show 2 ≤ j by omega)
            cases hc : t.current with
            | none =>
              left
              simp only [downOver, he, hc] at h
              simp only [down, hi, hc]
              exact h
            | some cur =>
              by_cases hne : target = none ∧ cur.previous = none
              · left
                obtain ⟨rfl, hp⟩ := hne
                simp only [downOver, he, hc, hp] at h
                simp only [down, hi, hc, hp]
                exact h
              · rw [downOver_to he hc hne] at h
                rw [down_goes_to hi hc hne]
                exact downToOver_cases hi hc h
    · simp only [downOver, he] at h
      cases h
      exact .inr (.inl ⟨by simp, by rw [hb]; exact .before, _, rfl⟩)

theorem downToOver_enough {t : VTable} {source to : String} {db db' : DB σ} {o : Outcome} (arrived : Bool)
    (hi : ensureInitialized B db = (.table t, true)) (h : downTo B db t source to = (db', o)) :
    (∃ n, ∀ k, n ≤ k → downToOver B arrived db k t source to = (db', o)) ∧
    (o = .ok → db' ≠ db → ∃ k, downToOver B true db k t source to = (db', .error)) := by
  have fin : ∀ {P : Nat → Prop}, (∃ n, ∀ j, n ≤ j → P (j + 3)) → ∃ n, ∀ k, n ≤ k → P k := by
    rintro P ⟨n, hn⟩
    refine ⟨n + 3, fun k hk => ?_⟩
    have := hn (k - 3) (by omega)
    rwa [show k - 3 + 3 = k by omega] at this
  unfold downTo at h
  cases hr : t.downwardRange source to with
  | none =>
    rw [hr] at h
    cases h
    exact ⟨fin ⟨0, fun j _ => by simp only [downToOver, hr]⟩, fun h => by cases h⟩
  | some vs =>
    rw [hr] at h
    cases vs with
    | nil =>
      cases h
      exact ⟨fin ⟨0, fun j _ => by simp only [downToOver, hr]⟩, fun _ h => absurd (rollback_self hi) h⟩
    | cons n ns =>
      dsimp only at h
      rcases hl : downLoop B (n :: ns) t db.data with ⟨t', s, o'⟩
      rw [hl] at h
      obtain ⟨n₂, hn₂⟩ := downLoopOver_enough B (n :: ns) t db.data
      constructor
      · refine fin ⟨n₂ + 1, fun j hj => ?_⟩
        obtain ⟨k', h1, h2⟩ := hn₂ (j - n₂)
        rw [show n₂ + (j - n₂) = j by omega] at h1
        simp only [downToOver, hr, h1, hl]
        cases o' with
        | ok =>
          rw [hl] at h2
          rw [h2 rfl, show j - n₂ = (j - n₂ - 1) + 1 by omega]
          exact h
        | error => exact h
        | panic => exact h
      · intro ho hne
        subst ho
        refine ⟨n₂ + 3, ?_⟩
        obtain ⟨k', h1, h2⟩ := hn₂ 0
        rw [Nat.add_zero] at h1
        simp only [downToOver, hr, h1, hl]
        cases o' with
        | ok =>
          rw [hl] at h2
          rw [h2 rfl]
          dsimp only at h ⊢
          simp only [commitOver]
          split at h
          · next hcm => cases h; simp [hcm]
          · cases h
        | error => cases h
        | panic => cases h

/-- As `upOver_enough`. -/
theorem downOver_enough {target : Option String} {db db' : DB σ} {o : Outcome} (arrived : Bool)
    (h : down B target db = (db', o)) :
    (∃ n, ∀ k, n ≤ k → downOver B arrived k target db = (db', o)) ∧
    (o = .ok → db' ≠ db → ∃ k, downOver B true k target db = (db', .error)) := by
  obtain ⟨n₁, hn₁⟩ := ensureOver_enough B db
  rcases hi : ensureInitialized B db with ⟨m, ok⟩
  simp only [hi] at hn₁
  have fin : ∀ {P : Nat → Prop}, (∃ n, ∀ j, n ≤ j → P (n₁ + (j + 2) + 1)) → ∃ n, ∀ k, n ≤ k → P k := by
    rintro P ⟨n, hn⟩
    refine ⟨n₁ + n + 3, fun k hk => ?_⟩
    have := hn (k - n₁ - 3) (by omega)
    rwa [show n₁ + (k - n₁ - 3 + 2) + 1 = k by omega] at this
  cases ok with
  | false =>
    simp only [down, hi] at h
    refine ⟨fin ⟨0, fun j _ => ?_⟩, fun ho => by cases h; cases ho⟩
    simp only [downOver, hn₁]
    exact h
  | true =>
    cases m with
    | absent =>
      simp only [down, hi] at h
      refine ⟨fin ⟨0, fun j _ => ?_⟩, fun ho => by cases h; cases ho⟩
      simp only [downOver, hn₁]
      exact h
    | noTable =>
      simp only [down, hi] at h
      refine ⟨fin ⟨0, fun j _ => ?_⟩, fun ho => by cases h; cases ho⟩
      simp only [downOver, hn₁]
      exact h
    | table t =>
      cases hc : t.current with
      | none =>
        simp only [down, hi, hc] at h
        refine ⟨fin ⟨0, fun j _ => ?_⟩, fun ho => by cases h; cases ho⟩
        simp only [downOver, hn₁, hc]
        exact h
      | some cur =>
        by_cases hne : target = none ∧ cur.previous = none
        · obtain ⟨rfl, hp⟩ := hne
          simp only [down, hi, hc, hp] at h
          refine ⟨fin ⟨0, fun j _ => ?_⟩, fun _ hd => ?_⟩
          · simp only [downOver, hn₁, hc, hp]
            exact h
          · cases h
            exact absurd (rollback_self hi) hd
        · rw [down_goes_to hi hc hne] at h
          obtain ⟨⟨n, h1⟩, h2⟩ := downToOver_enough arrived hi h
          refine ⟨fin ⟨n, fun j hj => ?_⟩, fun ho hd => ?_⟩
          · rw [downOver_to (hn₁ _) hc hne]
            exact h1 j hj
          · obtain ⟨k, hk⟩ := h2 ho hd
            exact ⟨n₁ + (k + 2) + 1, by rw [downOver_to (hn₁ _) hc hne]; exact hk⟩

theorem admits_versions {t₁ t₂ : VTable} (h : t₂.rows.map Row.version = t₁.rows.map Row.version) (v : Version) :
    t₂.admits v = t₁.admits v := by
  have key : ∀ t : VTable, ∀ x : String, (t.rows.any fun r => r.version.name == x) =
      (t.rows.map Row.version).any fun u => u.name == x := by
    intro t x
    rw [List.any_map]
    rfl
  unfold VTable.admits
  simp only [key, h]

theorem insert_versions {t₁ t₂ t₁' : VTable} (h : t₂.rows.map Row.version = t₁.rows.map Row.version) {v : Version}
    (hi : t₁.insert B v = (t₁', true)) (hr : t₂.next < 2147483648) :
    ∃ t₂', t₂.insert B v = (t₂', true) ∧ t₂'.rows.map Row.version = t₁'.rows.map Row.version ∧
      t₂'.next = t₂.next + 1 := by
  unfold VTable.insert at hi ⊢
  rw [if_neg (show ¬ t₂.next > maxOrder by unfold maxOrder; omega), admits_versions h]
  split at hi
  · cases hi
  · split at hi
    · next ha =>
      cases hi
      rw [if_pos ha]
      exact ⟨_, rfl, by simp [h], rfl⟩
    · cases hi

theorem upLoop_renumbered {d : HDir} {ns : List String} {t₁ t₂ t₁' : VTable} {s s' : σ}
    (h : t₂.rows.map Row.version = t₁.rows.map Row.version) (hu : upLoop B d ns t₁ s = (t₁', s', .ok))
    (hr : t₂.next + ns.length ≤ 2147483648) :
    ∃ t₂', upLoop B d ns t₂ s = (t₂', s', .ok) ∧ t₂'.rows.map Row.version = t₁'.rows.map Row.version := by
  induction ns generalizing t₁ t₂ s with
  | nil => cases hu; exact ⟨t₂, rfl, h⟩
  | cons n ns ih =>
    unfold upLoop at hu ⊢
    rw [List.length_cons] at hr
    cases hv : d.getVersion n with
    | error e => rw [hv] at hu; cases hu
    | ok v =>
      rw [hv] at hu
      dsimp only at hu ⊢
      cases hx : execAll B s v.up with
      | none => rw [hx] at hu; cases hu
      | some s₁ =>
        rw [hx] at hu
        dsimp only at hu ⊢
        rcases hi : t₁.insert B v with ⟨u₁, ok⟩
        rw [hi] at hu
        cases ok with
        | false => cases hu
        | true =>
          obtain ⟨u₂, h1, h2, h3⟩ := insert_versions h hi (show t₂.next < 2147483648 by omega)
          rw [h1]
          exact ih h2 hu (by omega)

theorem upLoop_length {d : HDir} {ns : List String} {t t' : VTable} {s s' : σ}
    (hu : upLoop B d ns t s = (t', s', .ok)) : t'.rows.length = t.rows.length + ns.length := by
  induction ns generalizing t s with
  | nil => cases hu; rfl
  | cons n ns ih =>
    unfold upLoop at hu
    cases hv : d.getVersion n with
    | error e => rw [hv] at hu; cases hu
    | ok v =>
      rw [hv] at hu
      dsimp only at hu
      cases hx : execAll B s v.up with
      | none => rw [hx] at hu; cases hu
      | some s₁ =>
        rw [hx] at hu
        dsimp only at hu
        rcases hi : t.insert B v with ⟨u₁, ok⟩
        rw [hi] at hu
        cases ok with
        | false => cases hu
        | true =>
          have := ih hu
          unfold VTable.insert at hi
          split at hi
          · cases hi
          · split at hi
            · cases hi; simp only [List.length_append, List.length_cons, List.length_nil] at this ⊢; omega
            · cases hi

/-- A successful `up` succeeds as well when numbers have been drawn, with the same result but for the numbers. -/
theorem up_renumbered {fuel : Nat} {d : HDir} {target : Option String} {db db₁ : DB σ} (m : Meta)
    (h : up B fuel d target db = some (db₁, .ok))
    (hroom : ∀ t, (db.rollback m).metaSchema = .table t → t.next + db₁.applied.length ≤ 2147483648) :
    ∃ db₂, up B fuel d target (db.rollback m) = some (db₂, .ok) ∧ db₂.data = db₁.data ∧ db₂.applied = db₁.applied ∧
      (db₂.metaSchema = .absent ↔ db₁.metaSchema = .absent) := by
  obtain ⟨ms, s⟩ := db
  cases ms with
  | absent => exact ⟨db₁, h, rfl, rfl, Iff.rfl⟩
  | noTable => exact ⟨db₁, h, rfl, rfl, Iff.rfl⟩
  | table t =>
    cases m with
    | absent => exact ⟨db₁, h, rfl, rfl, Iff.rfl⟩
    | noTable => exact ⟨db₁, h, rfl, rfl, Iff.rfl⟩
    | table u =>
      have hroom := hroom _ rfl
      dsimp only at hroom
      rcases up_cases h with ⟨_, hc⟩ | ⟨opened, t₀, hopen, ht, c, to, l, hcur, hto, hl, hc⟩
      · cases hc
      · cases ht
        have e1 : ensureInitialized B ((⟨.table t, s⟩ : DB σ).rollback (.table u)) =
            (.table { t with next := u.next }, true) := rfl
        have e2 : ({ t with next := u.next } : VTable).current = some c := hcur
        rcases hc with ⟨rfl, rfl, _⟩ | ⟨hne, t', s₁, o', hu, ⟨rfl, hcm, rfl, _⟩ | ⟨ho, _⟩⟩
        · refine ⟨(⟨.table t, s⟩ : DB σ).rollback (.table u), ?_, rfl, rfl, ?_⟩
          · unfold up
            rw [hopen]
            dsimp only
            rw [e1]
            dsimp only
            rw [e2]
            dsimp only
            rw [hto]
            dsimp only
            rw [hl]
            rfl
          · constructor <;> (intro h; cases h)
        · have hlen := upLoop_length hu
          obtain ⟨t₂, h1, h2⟩ := upLoop_renumbered (ns := l) (t₁ := t) (t₂ := { t with next := u.next }) rfl hu (by
            have : (⟨.table t', s₁⟩ : DB σ).applied.length = t'.rows.length := by simp [DB.applied]
            rw [this] at hroom
            dsimp only
            omega)
          refine ⟨⟨.table t₂, s₁⟩, ?_, rfl, h2, ?_⟩
          · unfold up
            rw [hopen]
            dsimp only
            rw [e1]
            dsimp only
            rw [e2]
            dsimp only
            rw [hto]
            dsimp only
            rw [hl]
            cases l with
            | nil => exact absurd rfl hne
            | cons n ns =>
              dsimp only
              change (match upLoop B d (n :: ns) { t with next := u.next } s with
                | (t', s, .ok) => if B.commits s then some ((⟨.table t', s⟩ : DB σ), Outcome.ok) else _
                | (t', _, o) => _) = _
              rw [h1]
              dsimp only
              rw [if_pos hcm]
          · constructor <;> (intro h; cases h)
        · exact absurd rfl ho

theorem downTo_next {ns : List String} {t t' : VTable} {s : σ} (h : DownTo B ns t s t') : t'.next = t.next := by
  induction h with
  | here => rfl
  | on _ _ hd _ ih =>
    rw [ih]
    unfold VTable.delete at hd
    split at hd
    · cases hd
    · cases hd; rfl

theorem downDies_cases {target : Option String} {db db' : DB σ} (h : DownDies B target db db') :
    db' = db ∨ db' = (down B target db).1 := by
  cases h with
  | before => exact .inl rfl
  | within hi _ _ hd => exact .inl (rollback_next hi (downTo_next hd))
  | after => exact .inr rfl

end Pg
namespace Prog
open Proj

variable {S : Setting σ}

/-- The three ways of `up`: it fails before any exchange, the metadata schema cannot be used, or it is `Pg.up`. -/
theorem up_ways (S : Setting σ) (w : World σ) (cwd : Proj.Path) (name : String) (target : Option String) :
    ((∀ c fuel, runOver S c fuel w cwd (.up name target) = some (w, .error)) ∧
      ∀ fuel, run S fuel w cwd (.up name target) = some (w, [], .error)) ∨
    (∃ d : HDir, (∀ c fuel, runOver S c fuel w cwd (.up name target) =
        match c.good with
        | 0 => some (w, .error)
        | _ + 1 => (HDir.fromDir fuel d).map fun _ => (w, .error)) ∧
      ∀ fuel, run S fuel w cwd (.up name target) = (HDir.fromDir fuel d).map fun _ => (w, [], .error)) ∨
    (∃ (p : Proj.Path) (url m : String) (s : Server σ), w.servers url = some s ∧
      (∀ c fuel, runOver S c fuel w cwd (.up name target) =
        (Pg.upOver S.B c.arrived fuel c.good (w.fs.history p) target (s.db m)).map
          fun r => (putServer w url m s r.1, pgEnding r.2)) ∧
      ∀ fuel, run S fuel w cwd (.up name target) =
        (Pg.up S.B fuel (w.fs.history p) target (s.db m)).map
          fun r => (putServer w url m s r.1, Pg.upPrinted S.B fuel (w.fs.history p) target (s.db m), pgEnding r.2)) := by
  cases hp : discover S.env w.fs cwd with
  | error e => exact .inl ⟨fun _ _ => by simp only [runOver, hp], fun _ => by simp only [run, hp]⟩
  | ok p =>
    cases h1 : p.historyDir DEFAULT_PROFILE with
    | error e => exact .inl ⟨fun _ _ => by simp only [runOver, hp, h1], fun _ => by simp only [run, hp, h1]⟩
    | ok h =>
      cases h2 : p.databaseUrl name with
      | error e => exact .inl ⟨fun _ _ => by simp only [runOver, hp, h1, h2], fun _ => by simp only [run, hp, h1, h2]⟩
      | ok url =>
        cases h3 : p.metadataSchema name with
        | error e => exact .inl ⟨fun _ _ => by simp only [runOver, hp, h1, h2, h3], fun _ => by simp only [run, hp, h1, h2, h3]⟩
        | ok ms =>
          cases hs : w.servers url with
          | none => exact .inl ⟨fun _ _ => by simp only [runOver, hp, h1, h2, h3, hs], fun _ => by simp only [run, hp, h1, h2, h3, hs]⟩
          | some s =>
            cases hm : openMeta S s ms with
            | none =>
              refine .inr (.inl ⟨w.fs.history h, fun c fuel => ?_, fun fuel => ?_⟩)
              · simp only [runOver, hp, h1, h2, h3, hs, hm]
                cases c.good with
                | zero => rfl
                | succ k => simp only []; cases HDir.fromDir fuel (w.fs.history h) <;> rfl
              · simp only [run, hp, h1, h2, h3, hs, hm]
                cases HDir.fromDir fuel (w.fs.history h) <;> rfl
            | some m =>
              refine .inr (.inr ⟨h, url, m, s, hs, fun c fuel => ?_, fun fuel => ?_⟩)
              · simp only [runOver, hp, h1, h2, h3, hs, hm, Server.db]
                cases Pg.upOver S.B c.arrived fuel c.good (w.fs.history h) target ⟨s.metas m, s.data⟩ <;> rfl
              · simp only [run, hp, h1, h2, h3, hs, hm, Server.db]
                cases Pg.up S.B fuel (w.fs.history h) target ⟨s.metas m, s.data⟩ <;> rfl

/-- The two ways of `down`. -/
theorem down_ways (S : Setting σ) (w : World σ) (cwd : Proj.Path) (name : String) (target : Option String) :
    ((∀ c fuel, runOver S c fuel w cwd (.down name target) = some (w, .error)) ∧
      ∀ fuel, run S fuel w cwd (.down name target) = some (w, [], .error)) ∨
    (∃ (url m : String) (s : Server σ), w.servers url = some s ∧
      (∀ c fuel, runOver S c fuel w cwd (.down name target) =
        some (putServer w url m s (Pg.downOver S.B c.arrived c.good target (s.db m)).1,
          pgEnding (Pg.downOver S.B c.arrived c.good target (s.db m)).2)) ∧
      ∀ fuel, run S fuel w cwd (.down name target) =
        some (putServer w url m s (Pg.down S.B target (s.db m)).1, Pg.downPrinted S.B target (s.db m),
          pgEnding (Pg.down S.B target (s.db m)).2)) := by
  cases hp : discover S.env w.fs cwd with
  | error e => exact .inl ⟨fun _ _ => by simp only [runOver, hp], fun _ => by simp only [run, hp]⟩
  | ok p =>
    cases h2 : p.databaseUrl name with
    | error e => exact .inl ⟨fun _ _ => by simp only [runOver, hp, h2], fun _ => by simp only [run, hp, h2]⟩
    | ok url =>
      cases h3 : p.metadataSchema name with
      | error e => exact .inl ⟨fun _ _ => by simp only [runOver, hp, h2, h3], fun _ => by simp only [run, hp, h2, h3]⟩
      | ok ms =>
        cases hs : w.servers url with
        | none => exact .inl ⟨fun _ _ => by simp only [runOver, hp, h2, h3, hs], fun _ => by simp only [run, hp, h2, h3, hs]⟩
        | some s =>
          cases hm : openMeta S s ms with
          | none => exact .inl ⟨fun _ _ => by simp only [runOver, hp, h2, h3, hs, hm], fun _ => by simp only [run, hp, h2, h3, hs, hm]⟩
          | some m =>
            exact .inr ⟨url, m, s, hs, fun _ _ => by simp only [runOver, hp, h2, h3, hs, hm, Server.db],
              fun _ => by simp only [run, hp, h2, h3, hs, hm, Server.db]⟩

/-- Every other command is the one of `run`. -/
theorem others_over {a : Args} (ha : ¬ Migrates a) (c : Wire) (fuel : Nat) (w : World σ) (cwd : Proj.Path) :
    runOver S c fuel w cwd a = (run S fuel w cwd a).map fun r => (r.1, r.2.2) := by
  cases a with
  | up n t => exact absurd ⟨n, t, .inl rfl⟩ ha
  | down n t => exact absurd ⟨n, t, .inr rfl⟩ ha
  | _ => rfl

theorem putServer_self {w : World σ} {url m : String} {s : Server σ} (hs : w.servers url = some s) :
    putServer w url m s (s.db m) = w := by
  have e1 : update s.metas m (s.metas m) = s.metas := update_same _ _
  obtain ⟨fs, sv⟩ := w
  simp only [putServer, Server.db, e1]
  congr 1
  have : (some (⟨s.metas, s.data⟩ : Server σ)) = sv url := hs.symm
  rw [this]; exact update_same _ _

theorem runOver_cases {c : Wire} {fuel : Nat} {w w' : World σ} {cwd : Proj.Path} {a : Args} {e : Ending}
    (h : runOver S c fuel w cwd a = some (w', e)) :
    (∃ out, run S fuel w cwd a = some (w', out, e)) ∨
    (e ≠ .success ∧ Migrates a ∧
      (w' = w ∨ ∃ (url m : String) (s : Server σ) (db : Pg.DB σ), w.servers url = some s ∧
        w' = putServer w url m s db ∧ (∃ t, db = (s.db m).rollback t) ∧
        ((∃ name target p, a = .up name target ∧ Pg.UpDies S.B (w.fs.history p) target (s.db m) db) ∨
          (∃ name target, a = .down name target ∧ Pg.DownDies S.B target (s.db m) db ∧
            (db = s.db m ∨ ∃ out e', run S fuel w cwd a = some (w', out, e')))))) ∨
    (e = .error ∧ Migrates a ∧ c.arrived = true ∧ ∃ out, run S fuel w cwd a = some (w', out, .success)) := by
  by_cases hm : Migrates a
  · obtain ⟨name, target, rfl | rfl⟩ := id hm
    · rcases up_ways S w cwd name target with ⟨h1, h2⟩ | ⟨d, h1, h2⟩ | ⟨p, url, m, s, hs, h1, h2⟩
      · rw [h1] at h; cases h; exact .inl ⟨_, h2 _⟩
      · rw [h1] at h
        cases hg : c.good with
        | zero => rw [hg] at h; cases h; exact .inr (.inl ⟨by simp, hm, .inl rfl⟩)
        | succ k =>
          rw [hg] at h
          simp only [Option.map_eq_some_iff] at h
          obtain ⟨r, hr, e'⟩ := h
          cases e'
          left; exact ⟨[], by rw [h2, hr]; rfl⟩
      · rw [h1] at h
        simp only [Option.map_eq_some_iff] at h
        obtain ⟨⟨db, o⟩, hr, e'⟩ := h
        cases e'
        rcases Pg.upOver_cases hr with hu | ⟨ho, hd, ht⟩ | ⟨rfl, ha, hu⟩
        · left; exact ⟨_, by rw [h2, hu]; rfl⟩
        · refine .inr (.inl ⟨?_, hm, .inr ⟨url, m, s, db, hs, rfl, ht, .inl ⟨name, target, p, rfl, hd⟩⟩⟩)
          cases o <;> simp_all [pgEnding]
        · exact .inr (.inr ⟨rfl, hm, ha, _, by rw [h2, hu]; rfl⟩)
    · rcases down_ways S w cwd name target with ⟨h1, h2⟩ | ⟨url, m, s, hs, h1, h2⟩
      · rw [h1] at h; cases h; exact .inl ⟨_, h2 _⟩
      · rw [h1] at h
        rcases hr : Pg.downOver S.B c.arrived c.good target (s.db m) with ⟨db, o⟩
        rw [hr] at h
        cases h
        rcases Pg.downOver_cases hr with hu | ⟨ho, hd, ht⟩ | ⟨rfl, ha, hu⟩
        · left; exact ⟨_, by rw [h2, hu]⟩
        · refine .inr (.inl ⟨?_, hm, .inr ⟨url, m, s, db, hs, rfl, ht, .inr ⟨name, target, rfl, hd, ?_⟩⟩⟩)
          · cases o <;> simp_all [pgEnding]
          · rcases Pg.downDies_cases hd with e | e
            · exact .inl e
            · exact .inr ⟨_, _, by rw [h2, ← e]⟩
        · exact .inr (.inr ⟨rfl, hm, ha, _, by rw [h2, hu]; rfl⟩)
  · rw [others_over hm] at h
    simp only [Option.map_eq_some_iff] at h
    obtain ⟨⟨w₁, out, e₁⟩, hr, e'⟩ := h
    cases e'
    exact .inl ⟨_, hr⟩

theorem runOver_enough {fuel : Nat} {w w' : World σ} {cwd : Proj.Path} {a : Args} {out : List String} {e : Ending}
    (arrived : Bool) (h : run S fuel w cwd a = some (w', out, e)) :
    (∃ n, ∀ k, n ≤ k → runOver S ⟨k, arrived⟩ fuel w cwd a = some (w', e)) ∧
    (e = .success → Migrates a → w' ≠ w → ∃ k, runOver S ⟨k, true⟩ fuel w cwd a = some (w', .error)) := by
  by_cases hm : Migrates a
  · obtain ⟨name, target, rfl | rfl⟩ := hm
    · rcases up_ways S w cwd name target with ⟨h1, h2⟩ | ⟨d, h1, h2⟩ | ⟨p, url, m, s, hs, h1, h2⟩
      · rw [h2] at h; cases h; exact ⟨⟨0, fun _ _ => h1 _ _⟩, fun h => by cases h⟩
      · rw [h2] at h
        simp only [Option.map_eq_some_iff] at h
        obtain ⟨r, hr, e'⟩ := h
        cases e'
        refine ⟨⟨1, fun k hk => ?_⟩, fun h => by cases h⟩
        obtain ⟨k, rfl⟩ := Nat.exists_eq_add_of_le' hk
        rw [h1, hr]; rfl
      · rw [h2] at h
        simp only [Option.map_eq_some_iff] at h
        obtain ⟨⟨db, o⟩, hr, e'⟩ := h
        cases e'
        obtain ⟨⟨n, hn⟩, hk⟩ := Pg.upOver_enough arrived hr
        refine ⟨⟨n, fun k hk => by rw [h1, hn k hk]; rfl⟩, fun he _ hne => ?_⟩
        obtain ⟨k, hk⟩ := hk (by cases o <;> simp_all [pgEnding]) (fun hdb => hne (by
          simp only []; rw [hdb]; exact putServer_self hs))
        exact ⟨k, by rw [h1, hk]; rfl⟩
    · rcases down_ways S w cwd name target with ⟨h1, h2⟩ | ⟨url, m, s, hs, h1, h2⟩
      · rw [h2] at h; cases h; exact ⟨⟨0, fun _ _ => h1 _ _⟩, fun h => by cases h⟩
      · rw [h2] at h
        rcases hr : Pg.down S.B target (s.db m) with ⟨db, o⟩
        rw [hr] at h
        cases h
        obtain ⟨⟨n, hn⟩, hk⟩ := Pg.downOver_enough arrived hr
        refine ⟨⟨n, fun k hk => by rw [h1, hn k hk]⟩, fun he _ hne => ?_⟩
        obtain ⟨k, hk⟩ := hk (by cases o <;> simp_all [pgEnding]) (fun hdb => hne (by
          simp only []; rw [hdb]; exact putServer_self hs))
        exact ⟨k, by rw [h1, hk]; rfl⟩
  · exact ⟨⟨0, fun k _ => by rw [others_over hm, h]; rfl⟩, fun _ h => absurd h hm⟩

end Prog
end Podo
