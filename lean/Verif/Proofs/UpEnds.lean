import Verif.Proofs.Pg
/-
All the ways in which `up` along a path of versions can end.
-/
namespace Podo
namespace Pg
variable {σ : Type}

/-- What a row tells once it has been inserted. -/
theorem insert_true {B : Behaviour σ} {t t' : VTable} {v : Version} (h : t.insert B v = (t', true)) :
    t' = ⟨t.rows ++ [⟨v, t.next⟩], t.next + 1⟩ ∧ t.next ≤ 2147483647 ∧ B.accepts v = true ∧
      v.name.length ≤ 128 ∧ (∀ p, v.previous = some p → p.length ≤ 128) ∧
      ∀ r ∈ t.rows, r.version.name ≠ v.name := by
  unfold VTable.insert at h
  split at h
  · cases h
  · next hn =>
    split at h
    · next hb =>
      simp only [VTable.admits, fits, Bool.and_eq_true, decide_eq_true_eq, Bool.not_eq_true',
        List.any_eq_false, beq_iff_eq] at hb
      obtain ⟨⟨⟨⟨h1, h2⟩, h3⟩, _⟩, h5⟩ := hb
      cases h
      refine ⟨rfl, by unfold maxOrder at hn; omega, h5, h1, ?_, h3⟩
      intro p hp
      rw [hp] at h2
      simpa [fits] using h2
    · cases h

/-- What versions have in common that have been recorded one after the other. -/
theorem upLoop_recorded {B : Behaviour σ} {d : HDir} {ws : List Version}
    (hst : ∀ w ∈ ws, Stored d w.name w) {t t' : VTable} {s s' : σ}
    (hu : upLoop B d (ws.map Version.name) t s = (t', s', .ok))
    (hf : ((t.rows.map Row.version).map Version.name).Nodup) :
    (∀ w ∈ ws, w.name.length ≤ 128 ∧ ∀ p, w.previous = some p → p.length ≤ 128) ∧
      (∀ w ∈ ws, B.accepts w = true) ∧ ((t.rows.map Row.version ++ ws).map Version.name).Nodup ∧
      (ws ≠ [] → t.next + ws.length ≤ 2147483648) := by
  induction ws generalizing t s with
  | nil => exact ⟨by simp, by simp, by simpa using hf, fun h => absurd rfl h⟩
  | cons w ws ih =>
    rw [List.map_cons, upLoop, stored_iff.1 (hst w (by simp))] at hu
    simp only at hu
    cases hx : execAll B s w.up with
    | none => rw [hx] at hu; simp at hu
    | some s₁ =>
      rw [hx] at hu
      simp only at hu
      split at hu
      · simp at hu
      · next t₁ hi =>
        obtain ⟨rfl, h1, h2, h3, h4, h5⟩ := insert_true hi
        have hf' : (((t.rows ++ [(⟨w, t.next⟩ : Row)]).map Row.version).map Version.name).Nodup := by
          rw [List.map_append, List.map_append, List.nodup_append]
          refine ⟨hf, by simp, ?_⟩
          intro a ha b hb
          simp only [List.map_cons, List.map_nil, List.mem_singleton] at hb
          subst hb
          obtain ⟨v, hv, rfl⟩ := List.mem_map.1 ha
          obtain ⟨r, hr, rfl⟩ := List.mem_map.1 hv
          exact h5 r hr
        obtain ⟨i1, i2, i3, i4⟩ := ih (fun x hx => hst x (by simp [hx])) hu hf'
        refine ⟨?_, ?_, by simpa using i3, fun _ => ?_⟩
        · intro x hx
          rcases List.mem_cons.1 hx with rfl | hx
          · exact ⟨h3, h4⟩
          · exact i1 x hx
        · intro x hx
          rcases List.mem_cons.1 hx with rfl | hx
          · exact h2
          · exact i2 x hx
        · cases ws with
          | nil => simp only [List.length_cons, List.length_nil]; omega
          | cons y ys =>
            have := i4 (by simp)
            simp only [List.length_cons] at this ⊢
            omega

/-- Creating the metadata schema succeeded, so it could be created. -/
theorem ensure_created {B : Behaviour σ} {db : DB σ} (ha : db.metaSchema = .absent) {t : VTable}
    (h : ensureInitialized B db = (.table t, true)) :
    B.creates db.data = true ∧ B.accepts Version.newInit = true := by
  unfold ensureInitialized at h
  rw [ha] at h
  simp only at h
  split at h
  · next hc =>
    refine ⟨hc, ?_⟩
    cases hi : VTable.insert B ⟨[], 1⟩ Version.newInit with
    | mk t' ok =>
      rw [hi] at h
      simp only [Prod.mk.injEq] at h
      obtain ⟨_, rfl⟩ := h
      exact (insert_true hi).2.2.1
  · cases h

/-- `up` along a path of versions, in terms of the loop. -/
theorem up_along {B : Behaviour σ} {d : HDir} (hn : StoredNames d) {target : Option String}
    {db : DB σ} (hg : Good db) {t₀ : VTable} (ht : ensureInitialized B db = (.table t₀, true))
    {n : String} {cv : String}
    (hop : Opens d cv) (htar : target.getD cv = n) {cur : Version}
    (hcur : db.applied.getLast? = some cur)
    {ws : List Version} (hp : VersionPath d cur.name n (ws.map Version.name))
    (hnot : cur.name ∉ ws.map Version.name) (hw : ws ≠ []) :
    ∃ fuel, ∀ k r, up B k d target db = some r ∨ fuel ≤ k → up B k d target db = some
      (match upLoop B d (ws.map Version.name) t₀ db.data with
        | (t', s, .ok) => if B.commits s then (⟨.table t', s⟩, .ok) else (db.rollback (.table t'), .error)
        | (t', _, o) => (db.rollback (.table t'), o)) := by
  obtain ⟨hch, happ, _⟩ := ensure_chain hg ht
  obtain ⟨q, r, hq⟩ := hch.split_last
  have hlastapp : db.applied.getLast? = some r.version := by rw [← happ, hq]; simp
  rw [hcur] at hlastapp
  cases hlastapp
  obtain ⟨f, nm, hopen⟩ := hop
  obtain ⟨to, hto⟩ : ∃ to, Stored d n to := path_stored hp
  have hton := hn _ _ hto
  have hrange : ∀ k, (ws.map Version.name).length + 1 ≤ k →
      HDir.upwardRange k d r.version.name to.name = some (.ok (ws.map Version.name)) := by
    intro k hk
    refine upwardRange_mono hk ?_
    have := rangeLoop_of_path (t := to.name) hn hp hnot []
    simp only [List.reverse_nil, List.append_nil] at this
    unfold HDir.upwardRange
    rw [hton] at this ⊢; exact this
  -- what the two searches find does not depend on the fuel
  have key : ∀ k, HDir.fromDir k d = some (.ok ⟨nm, cv⟩) →
      HDir.upwardRange k d r.version.name to.name = some (.ok (ws.map Version.name)) →
      up B k d target db = some
      (match upLoop B d (ws.map Version.name) t₀ db.data with
        | (t', s, .ok) => if B.commits s then (⟨.table t', s⟩, .ok) else (db.rollback (.table t'), .error)
        | (t', _, o) => (db.rollback (.table t'), o)) := by
    intro k h1 h2
    unfold up
    rw [h1]
    simp only [ht, hch.current hq, htar, stored_iff.1 hto, h2]
    split
    · next he => cases he
    · next he => cases he
    · next he => simp at he; exact absurd he hw
    · next l hne he =>
      simp only [Option.some.injEq, Except.ok.injEq] at he
      subst he
      rcases upLoop B d (ws.map Version.name) t₀ db.data with ⟨t', s, o⟩
      cases o
      · simp only
        split <;> rfl
      · rfl
      · rfl
  refine ⟨f + (ws.map Version.name).length + 1, fun k res hk => ?_⟩
  rcases hk with hk | hk
  · have h1 : HDir.fromDir k d = some (.ok ⟨nm, cv⟩) := by
      cases h : HDir.fromDir k d with
      | none => unfold up at hk; rw [h] at hk; cases hk
      | some x =>
        have a := fromDir_mono (Nat.le_max_left k f) h
        have b := fromDir_mono (Nat.le_max_right k f) hopen
        rw [← a, b]
    refine key k h1 ?_
    cases h : HDir.upwardRange k d r.version.name to.name with
    | none =>
      unfold up at hk
      rw [h1] at hk
      simp only [ht, hch.current hq, htar, stored_iff.1 hto, h] at hk
      cases hk
    | some x =>
      have a := upwardRange_mono (Nat.le_max_left k ((ws.map Version.name).length + 1)) h
      rw [← a, hrange _ (Nat.le_max_right _ _)]
  · exact key k (fromDir_mono (by omega) hopen) (hrange k (by omega))

/-- Along the path, the loop ends well exactly when the scripts run and the versions can be recorded. -/
theorem upLoop_iff {B : Behaviour σ} {d : HDir} (hn : StoredNames d)
    {db : DB σ} (hg : Good db) {t₀ : VTable} (ht : ensureInitialized B db = (.table t₀, true))
    {n : String} {cur : Version}
    (hcur : db.applied.getLast? = some cur)
    {ws : List Version} (hp : VersionPath d cur.name n (ws.map Version.name))
    (hst : ∀ w ∈ ws, Stored d w.name w) (hw : ws ≠ []) :
    (∀ s', (∃ t', upLoop B d (ws.map Version.name) t₀ db.data = (t', s', .ok)) ↔
      execAll B db.data (ws.flatMap Version.up) = some s' ∧ Recordable B db ws) ∧
    (¬ (∃ t' s', upLoop B d (ws.map Version.name) t₀ db.data = (t', s', .ok)) →
      ∃ t' s', upLoop B d (ws.map Version.name) t₀ db.data = (t', s', .panic)) := by
  obtain ⟨hch, happ, huniq⟩ := ensure_chain hg ht
  obtain ⟨q, r, hq⟩ := hch.split_last
  have hlastapp : db.applied.getLast? = some r.version := by rw [← happ, hq]; simp
  rw [hcur] at hlastapp
  cases hlastapp
  obtain ⟨ws', hws, hst', hlk, hlast⟩ := path_versions hn hp
  have hww : ws' = ws := by
    clear hlast hlk hp hw
    induction ws generalizing ws' with
    | nil => simpa using hws
    | cons w ws ih =>
      cases ws' with
      | nil => cases hws
      | cons w' ws' =>
        simp only [List.map_cons, List.cons.injEq] at hws
        have h1 := hst' w' (by simp)
        rw [hws.1] at h1
        rw [h1.unique (hst w (by simp)), ih (fun x hx => hst x (by simp [hx])) ws' hws.2
          (fun x hx => hst' x (by simp [hx]))]
  subst hww
  refine ⟨fun s' => ⟨?_, ?_⟩, ?_⟩
  · rintro ⟨t', hu⟩
    obtain ⟨_, h2, _⟩ := upLoop_ok hst hch hq hlk hu
    obtain ⟨h3, h4, h5, h6⟩ := upLoop_recorded hst hu (by rw [List.map_map]; exact hch.names)
    refine ⟨h2, h3, h4, by rw [← happ]; exact h5, ?_, ?_, ?_⟩
    · intro t h
      rw [huniq t h]
      exact h6 hw
    · intro h
      obtain ⟨h7, h8⟩ := ensure_created h ht
      rcases ensure_cases ht with ⟨hm, hne⟩ | ⟨_, hm⟩
      · exact absurd (hm.trans h) hne
      · cases hm
        have := h6 hw
        simp only at this
        exact ⟨h7, h8, by omega⟩
    · intro h
      unfold ensureInitialized at ht
      rw [h] at ht
      cases ht
  · rintro ⟨hx, hr⟩
    refine upLoop_runs hst hch hq hlk hx hr.short hr.accepted (by rw [happ]; exact hr.fresh) ?_
    obtain ⟨t, h1, h2⟩ := ensure_of_recordable hr
    rw [ht] at h1
    cases h1
    exact h2
  · intro hno
    cases h : upLoop B d (ws'.map Version.name) t₀ db.data with
    | mk t' so =>
      obtain ⟨s, o⟩ := so
      rcases upLoop_stored (B := B) (t := t₀) (s := db.data) hst with h1 | ⟨h1, _⟩
      · rw [h] at h1; cases h1; exact ⟨_, _, rfl⟩
      · rw [h] at h1; cases h1; exact absurd ⟨_, _, h⟩ hno

end Pg
end Podo
