import Verif.Proofs.DdlSchema
/-
Accepted definitions are well-formed (C46).
-/
set_option linter.unusedSimpArgs false
namespace Podo
namespace Def
open Text

theorem parseColumn_home {s t : String} {n : Node} {c : Column} (h : parseColumn s t n = .ok c) :
    c.schemaName = s ∧ c.tableName = t := by
  unfold parseColumn assertKind at h
  split at h
  · split at h
    · cases h
    · split at h
      · cases h
      · split at h
        · cases h
        · injection h with h; subst h; exact ⟨rfl, rfl⟩
  · cases h

theorem parseConstraint_home {s t : String} {n : Node} {c : Constraint}
    (h : parseConstraint s t n = .ok c) : c.schemaName = s ∧ c.tableName = t := by
  unfold parseConstraint at h
  split at h
  · cases h
  · cases h
  · split at h
    · split at h
      · next d e =>
        injection h with h; subst h
        obtain ⟨_, _, _, a, bad, _, _, _, hf⟩ := readNode_ok_iff.1 e
        unfold finishPrimaryKey at hf
        split at hf
        · injection hf with hf; subst hf; exact ⟨rfl, rfl⟩
        · cases hf
      · cases h
    · split at h
      · split at h
        · next d e =>
          injection h with h; subst h
          obtain ⟨_, _, _, a, bad, _, _, _, hf⟩ := readNode_ok_iff.1 e
          unfold finishUnique at hf
          split at hf
          · injection hf with hf; subst hf; exact ⟨rfl, rfl⟩
          · cases hf
        · cases h
      · split at h
        · split at h
          · next d e =>
            injection h with h; subst h
            obtain ⟨_, _, _, a, bad, _, _, _, hf⟩ := readNode_ok_iff.1 e
            unfold finishForeignKey at hf
            split at hf
            · injection hf with hf; subst hf; exact ⟨rfl, rfl⟩
            · cases hf
          · cases h
        · split at h
          · split at h
            · next d e =>
              injection h with h; subst h
              obtain ⟨_, _, _, a, bad, _, _, _, hf⟩ := readNode_ok_iff.1 e
              unfold finishCheck at hf
              split at hf
              · injection hf with hf; subst hf; exact ⟨rfl, rfl⟩
              · cases hf
            · cases h
          · cases h

theorem tableItem_home {s t : String} {n : Node} {x : Column ⊕ Constraint}
    (h : tableItem s t n = .ok x) : match x with
      | .inl c => c.schemaName = s ∧ c.tableName = t
      | .inr c => c.schemaName = s ∧ c.tableName = t := by
  unfold tableItem at h
  split at h
  · split at h
    · next c e => injection h with h; subst h; exact parseColumn_home e
    · cases h
  · split at h
    · split at h
      · next c e => injection h with h; subst h; exact parseConstraint_home e
      · cases h
    · cases h

theorem keys_of_map {α : Type} {xs : List α} {name : α → String} :
    AMap.keys (xs.map fun c => (name c, c)) = xs.map name := by
  unfold AMap.keys
  rw [List.map_map]; rfl

theorem parseTable_wf {s : String} {n : Node} {t : Table} (h : parseTable s n = .ok t) :
    t.WF ∧ t.schemaName = s := by
  obtain ⟨_, name, ns, xs, _, _, hx, h1, h2, rfl⟩ := parseTable_ok_iff.1 h
  refine ⟨⟨h1, ?_, ?_, ?_⟩, rfl⟩
  · intro c hc
    obtain ⟨m, _, e⟩ := map_ok_mem hx (mem_lefts.1 hc)
    exact tableItem_home e
  · show (AMap.keys _).Nodup
    rw [keys_of_map]; exact h2
  · intro p hp
    obtain ⟨c, hc, rfl⟩ := List.mem_map.1 hp
    obtain ⟨m, _, e⟩ := map_ok_mem hx (mem_rights.1 hc)
    exact ⟨rfl, tableItem_home e⟩

theorem parseView_home {s : String} {n : Node} {v : View} (h : parseView s n = .ok v) :
    v.schemaName = s := by
  obtain ⟨_, _, _, a, bad, _, _, _, hf⟩ := readNode_ok_iff.1 h
  unfold finishView at hf
  split at hf
  · injection hf with hf; subst hf; rfl
  · cases hf

theorem parseIndex_home {s : String} {n : Node} {v : Index} (h : parseIndex s n = .ok v) :
    v.schemaName = s := by
  obtain ⟨_, _, _, a, bad, _, _, _, hf⟩ := readNode_ok_iff.1 h
  unfold finishIndex at hf
  split at hf
  · cases hf
  · injection hf with hf; subst hf; rfl

theorem parseFunction_home {s : String} {n : Node} {v : Function} (h : parseFunction s n = .ok v) :
    v.schemaName = s := by
  obtain ⟨_, _, _, a, bad, _, _, _, hf⟩ := readNode_ok_iff.1 h
  unfold finishFunction at hf
  split at hf
  · injection hf with hf; subst hf; rfl
  · cases hf

theorem parseSequence_home {s : String} {n : Node} {v : Sequence} (h : parseSequence s n = .ok v) :
    v.schemaName = s := by
  obtain ⟨_, _, _, a, bad, _, _, _, hf⟩ := readNode_ok_iff.1 h
  unfold finishSequence at hf
  dsimp only at hf
  split at hf
  · cases hf
  · split at hf
    · cases hf
    · split at hf
      · cases hf
      · injection hf with hf; subst hf; rfl

theorem schemaItem_home {s : String} {n : Node} {x : Relation ⊕ Function}
    (h : schemaItem s n = .ok x) : match x with
      | .inl r => r.schemaName = s ∧ r.WF
      | .inr f => f.schemaName = s := by
  unfold schemaItem at h
  split at h
  · obtain ⟨t, e, rfl⟩ := map_ok_iff'.1 h
    exact ⟨(parseTable_wf e).2, (parseTable_wf e).1⟩
  · split at h
    · obtain ⟨t, e, rfl⟩ := map_ok_iff'.1 h
      exact ⟨parseView_home e, trivial⟩
    · split at h
      · obtain ⟨t, e, rfl⟩ := map_ok_iff'.1 h
        exact ⟨parseSequence_home e, trivial⟩
      · split at h
        · obtain ⟨t, e, rfl⟩ := map_ok_iff'.1 h
          exact ⟨parseIndex_home e, trivial⟩
        · split at h
          · obtain ⟨t, e, rfl⟩ := map_ok_iff'.1 h
            exact parseFunction_home e
          · cases h

theorem parseSchema_wf {n : Node} {s : Schema} (h : parseSchema n = .ok s) : s.WF := by
  obtain ⟨_, name, ns, xs, _, _, hx, h1, h2, rfl⟩ := parseSchema_ok_iff.1 h
  refine ⟨?_, ?_, ?_, ?_⟩
  · show (AMap.keys _).Nodup
    rw [keys_of_map]; exact h1
  · intro p hp
    obtain ⟨c, hc, rfl⟩ := List.mem_map.1 hp
    obtain ⟨m, _, e⟩ := map_ok_mem hx (mem_lefts.1 hc)
    exact ⟨rfl, schemaItem_home e⟩
  · show (AMap.keys _).Nodup
    rw [keys_of_map]; exact h2
  · intro p hp
    obtain ⟨c, hc, rfl⟩ := List.mem_map.1 hp
    obtain ⟨m, _, e⟩ := map_ok_mem hx (mem_rights.1 hc)
    exact ⟨rfl, schemaItem_home e⟩

theorem parseDoc_wf {y : Yaml} {ss : List Schema} (h : parseDoc y = .ok ss) : ∀ s ∈ ss, s.WF := by
  unfold parseDoc at h
  split at h
  · split at h
    · cases h
    · split at h
      · cases h
      · next ns ss' e =>
        injection h with h; subst h
        intro s hs
        obtain ⟨m, _, e⟩ := map_ok_mem (parseSchemas_iff.1 e) hs
        exact parseSchema_wf e
  · cases h

/-- The loop of the code, which parses and adds in turn, and the two steps of the model of loading
succeed on the same files with the same result. -/
theorem loadNodes_iff {ns : List Node} {d d' : Database} :
    loadNodes d ns = .ok d' ↔ ∃ ss, parseSchemas ns = .ok ss ∧ Load.addSchemas d ss = .ok d' := by
  induction ns generalizing d with
  | nil =>
    constructor
    · intro h
      injection h with h
      exact ⟨[], rfl, congrArg _ h⟩
    · rintro ⟨ss, h1, h2⟩
      injection h1 with h1; subst h1
      injection h2 with h2
      exact congrArg _ h2
  | cons n ns ih =>
    rw [loadNodes]
    constructor
    · intro h
      split at h
      · cases h
      · next s e =>
        split at h
        · cases h
        · next d1 e1 =>
          obtain ⟨ss, h1, h2⟩ := ih.1 h
          refine ⟨s :: ss, ?_, ?_⟩
          · rw [parseSchemas, e]; dsimp only; rw [h1]
          · rw [Load.addSchemas, e1]; exact h2
    · rintro ⟨ss, h1, h2⟩
      rw [parseSchemas] at h1
      split at h1
      · cases h1
      · next s e =>
        split at h1
        · cases h1
        · next ss' e' =>
          injection h1 with h1; subst h1
          rw [Load.addSchemas] at h2
          split at h2
          · cases h2
          · next d1 e1 =>
            rw [e1]
            exact ih.2 ⟨ss', e', h2⟩

theorem loadDoc_iff {y : Yaml} {d : Database} :
    loadDoc y = .ok d ↔ ∃ ss, parseDoc y = .ok ss ∧ Load.addSchemas Database.new ss = .ok d := by
  unfold loadDoc parseDoc
  split
  · split
    · constructor
      · intro h; cases h
      · rintro ⟨_, h, _⟩; cases h
    · next ns e =>
      rw [loadNodes_iff]
      constructor
      · rintro ⟨ss, h1, h2⟩
        exact ⟨ss, by rw [h1], h2⟩
      · rintro ⟨ss, h1, h2⟩
        refine ⟨ss, ?_, h2⟩
        split at h1
        · cases h1
        · next e' => injection h1 with h1; subst h1; exact e'
  · constructor
    · intro h; cases h
    · rintro ⟨_, h, _⟩; cases h

theorem loadDoc_wf {y : Yaml} {d : Database} (h : loadDoc y = .ok d) : d.WF := by
  obtain ⟨ss, h1, h2⟩ := loadDoc_iff.1 h
  have := (addSchemas_ok_iff ss Database.new [] holds_new (parseDoc_wf h1)).2 d h2
  exact this.wf

theorem snapshot_wf {es : List (DirTree Yaml)} {d : Database}
    (h : Load.snapshot parseDoc es = .ok d) : d.WF := by
  have := (filesInto_ok_iff (parse := parseDoc) (Load.collect es) Database.new [] holds_new
    (fun f _ scs hp => parseDoc_wf hp)).2 d h
  exact this.wf

end Def
end Podo
