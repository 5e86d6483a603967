import Verif.Spec.Merge
import Verif.Proofs.Fleet
import Verif.Props.History
/-
Lemmas for C86.
-/
namespace Podo
variable {d d₁ d₂ m : HDir} {vs vs₁ vs₂ : List Version} {st st₁ st₂ : Version}

theorem SameVersions.history (hs : SameVersions m d) (hn : m.NodupKeys) (h : IsHistory d vs st) :
    IsHistory m vs st :=
  ⟨hn, fun n e => by rw [hs n]; exact h.files n e, h.linked, h.names, h.stage, h.plain⟩

theorem Merged.swap (h : Merged d₁ d₂ m) : Merged d₂ d₁ m :=
  ⟨h.nodup, fun f e he => (h.either f e he).symm, fun f e hf he => h.kept f e hf he.symm, h.stage⟩

theorem yaml_ne_stage {n : String} (h : n ≠ "stage") : n ++ ".yaml" ≠ "stage.yaml" := by
  intro e
  exact h (String.append_left_inj ".yaml" |>.1 (e.trans rfl))

theorem IsHistory.made_ne_stage (h : IsHistory d vs st) {v : Version} (hv : v ∈ vs) : v.name ≠ "stage" := by
  have hnd := h.names
  rw [List.nodup_append] at hnd
  exact fun e => hnd.2.2 v.name (List.mem_cons_of_mem _ (List.mem_map_of_mem hv)) "stage" (by simp) e

/-- Two lists: a common beginning, after which they differ or one of them ends. -/
theorem common_prefix [DecidableEq α] : ∀ l l' : List α, ∃ p r r', l = p ++ r ∧ l' = p ++ r' ∧
    (r = [] ∨ r' = [] ∨ ∃ a t a' t', r = a :: t ∧ r' = a' :: t' ∧ a ≠ a')
  | [], l' => ⟨[], [], l', rfl, rfl, .inl rfl⟩
  | l, [] => ⟨[], l, [], rfl, rfl, .inr (.inl rfl)⟩
  | a :: l, a' :: l' => by
    by_cases h : a = a'
    · obtain ⟨p, r, r', e, e', hc⟩ := common_prefix l l'
      exact ⟨a :: p, r, r', by rw [e]; rfl, by rw [e', h]; rfl, hc⟩
    · exact ⟨[], a :: l, a' :: l', rfl, rfl, .inr (.inr ⟨a, l, a', l', rfl, rfl, h⟩)⟩

/-- The predecessor of the version after `A`. -/
theorem IsHistory.prev_of (h : IsHistory d vs st) {A C : List Version} {v : Version}
    (e : vs ++ [st] = A ++ v :: C) : v.previous = some (((Version.newInit :: A).getLast?.map Version.name).getD "init") := by
  have hl := h.linked
  rw [e, show Version.newInit :: (A ++ v :: C) = (Version.newInit :: A) ++ v :: C from rfl] at hl
  rw [hl.prev_last, Option.or_none, List.getLast?_cons]
  rfl

/-- One copy has made nothing that the other has not. -/
theorem merge_prefix (h₁ : IsHistory d₁ vs₁ st₁) (h₂ : IsHistory d₂ vs₂ st₂) (hm : Merged d₁ d₂ m)
    (hp : vs₁ <+: vs₂) : SameVersions m d₁ ∨ SameVersions m d₂ ∨
      ∃ p a b v w, a ≠ b ∧ Stored m a v ∧ Stored m b w ∧ v.previous = some p ∧ w.previous = some p ∧
        v.name = a ∧ w.name = b := by
  obtain ⟨r, rfl⟩ := hp
  -- all but the stage is as in the second copy
  have hrest : ∀ n, n ≠ "stage" → m.get? (n ++ ".yaml") = d₂.get? (n ++ ".yaml") := by
    intro n hn
    cases hg : d₂.get? (n ++ ".yaml") with
    | some e => exact hm.kept _ _ (yaml_ne_stage hn) (.inr hg)
    | none =>
      cases hg' : m.get? (n ++ ".yaml") with
      | none => rfl
      | some e =>
        rcases hm.either _ _ hg' with he | he
        · obtain ⟨v, hv, hvn, rfl⟩ := (h₁.files _ _).1 he
          have : d₂.get? (n ++ ".yaml") = some (.file (some v)) := by
            refine (h₂.files _ _).2 ⟨v, ?_, hvn, rfl⟩
            simp only [List.mem_cons, List.mem_append, List.not_mem_nil, or_false] at hv ⊢
            rcases hv with hv | hv | hv
            · exact .inl hv
            · exact .inr (.inl (.inl hv))
            · rw [hv, h₁.stage] at hvn; exact absurd hvn.symm hn
          rw [this] at hg; cases hg
        · rw [he] at hg; cases hg
  have hst : m.get? ("stage" ++ ".yaml") = some (.file (some st₁)) ∨
      m.get? ("stage" ++ ".yaml") = some (.file (some st₂)) := by
    cases hg : m.get? "stage.yaml" with
    | none => exact absurd hg hm.stage
    | some e =>
      rcases hm.either _ _ hg with he | he
      · exact .inl (hg.trans (he.symm.trans h₁.stored_stage))
      · exact .inr (hg.trans (he.symm.trans h₂.stored_stage))
  rcases hst with hst | hst
  · cases r with
    | nil =>
      refine .inl fun n => ?_
      by_cases hn : n = "stage"
      · rw [hn, hst]; exact h₁.stored_stage.symm
      · rw [hrest n hn]
        cases hg : d₁.get? (n ++ ".yaml") with
        | some e => rw [← hrest n hn]; exact hm.kept _ _ (yaml_ne_stage hn) (.inl hg)
        | none =>
          cases hg' : d₂.get? (n ++ ".yaml") with
          | none => rfl
          | some e =>
            obtain ⟨v, hv, hvn, rfl⟩ := (h₂.files _ _).1 hg'
            have : d₁.get? (n ++ ".yaml") = some (.file (some v)) := by
              refine (h₁.files _ _).2 ⟨v, ?_, hvn, rfl⟩
              simp only [List.append_nil, List.mem_cons, List.mem_append, List.not_mem_nil, or_false] at hv ⊢
              rcases hv with hv | hv | hv
              · exact .inl hv
              · exact .inr (.inl hv)
              · rw [hv, h₂.stage] at hvn; exact absurd hvn.symm hn
            rw [this] at hg; cases hg
    | cons v r =>
      refine .inr (.inr ⟨_, v.name, "stage", v, st₁, h₂.made_ne_stage (by simp), ?_, hst,
        h₂.prev_of (A := vs₁) (C := r ++ [st₂]) (by simp), h₁.prev_of (A := vs₁) (C := []) rfl, rfl, h₁.stage⟩)
      unfold Stored
      rw [hrest _ (h₂.made_ne_stage (by simp))]
      exact h₂.stored (by simp)
  · refine .inr (.inl fun n => ?_)
    by_cases hn : n = "stage"
    · rw [hn, hst]; exact h₂.stored_stage.symm
    · exact hrest n hn

theorem merge_cases (h₁ : IsHistory d₁ vs₁ st₁) (h₂ : IsHistory d₂ vs₂ st₂) (hm : Merged d₁ d₂ m) :
    ((vs₁ <+: vs₂ ∨ vs₂ <+: vs₁) ∧ (SameVersions m d₁ ∨ SameVersions m d₂)) ∨
      ∃ p a b v w, a ≠ b ∧ Stored m a v ∧ Stored m b w ∧ v.previous = some p ∧ w.previous = some p ∧
        v.name = a ∧ w.name = b := by
  obtain ⟨p, r, r', e, e', hc⟩ := common_prefix vs₁ vs₂
  rcases hc with rfl | rfl | ⟨a, t, b, t', rfl, rfl, hab⟩
  · have hp : vs₁ <+: vs₂ := ⟨r', by rw [e, e']; simp⟩
    rcases merge_prefix h₁ h₂ hm hp with h | h | h
    · exact .inl ⟨.inl hp, .inl h⟩
    · exact .inl ⟨.inl hp, .inr h⟩
    · exact .inr h
  · have hp : vs₂ <+: vs₁ := ⟨r, by rw [e, e']; simp⟩
    rcases merge_prefix h₂ h₁ hm.swap hp with h | h | h
    · exact .inl ⟨.inr hp, .inr h⟩
    · exact .inl ⟨.inr hp, .inl h⟩
    · exact .inr h
  · have ha : a ∈ vs₁ := by rw [e]; simp
    have hb : b ∈ vs₂ := by rw [e']; simp
    have hma : Stored m a.name a := hm.kept _ _ (yaml_ne_stage (h₁.made_ne_stage ha)) (.inl (h₁.stored (by simp [ha])))
    have hmb : Stored m b.name b := hm.kept _ _ (yaml_ne_stage (h₂.made_ne_stage hb)) (.inr (h₂.stored (by simp [hb])))
    refine .inr ⟨_, a.name, b.name, a, b, ?_, hma, hmb, h₁.prev_of (A := p) (C := t ++ [st₁]) (by rw [e]; simp),
      h₂.prev_of (A := p) (C := t' ++ [st₂]) (by rw [e']; simp), rfl, rfl⟩
    intro hn
    unfold Stored at hma hmb
    rw [hn, hmb] at hma
    exact hab (by injection hma with h; injection h with h; injection h with h; exact h.symm)

theorem merged_plain (h₁ : IsHistory d₁ vs₁ st₁) (h₂ : IsHistory d₂ vs₂ st₂) (hm : Merged d₁ d₂ m) :
    PlainNames m := by
  intro f hf stem
  obtain ⟨⟨f', e⟩, hmem, rfl⟩ := List.mem_map.1 hf
  rcases hm.either _ _ (AMap.get?_of_mem hm.nodup hmem) with he | he
  · exact h₁.plainNames _ (List.mem_map_of_mem (AMap.mem_of_get? he)) stem
  · exact h₂.plainNames _ (List.mem_map_of_mem (AMap.mem_of_get? he)) stem

theorem merged_file (h₁ : IsHistory d₁ vs₁ st₁) (h₂ : IsHistory d₂ vs₂ st₂) (hm : Merged d₁ d₂ m) {f : String}
    {c : Option Version} (hf : YamlFile m f c) : YamlFile d₁ f c ∨ YamlFile d₂ f c := by
  rcases hm.either _ _ (AMap.get?_of_mem hm.nodup hf.1) with he | he
  · exact .inl ⟨AMap.mem_of_get? he, hf.2⟩
  · exact .inr ⟨AMap.mem_of_get? he, hf.2⟩

theorem IsHistory.yaml_version (h : IsHistory d vs st) {f : String} {c : Option Version} (hf : YamlFile d f c) :
    ∃ v ∈ Version.newInit :: (vs ++ [st]), c = some v ∧ f = v.name ++ ".yaml" := by
  obtain ⟨w, hw, hfn, he⟩ := h.get_yaml hf.1 hf.2
  cases he
  exact ⟨w, hw, rfl, hfn⟩

theorem IsHistory.no_branch (h : IsHistory d vs st) {f g : String} {v w : Version} (hf : YamlFile d f (some v))
    (hg : YamlFile d g (some w)) {p : String} (hv : v.previous = some p) (hw : w.previous = some p) : f = g := by
  obtain ⟨v', hv', e, rfl⟩ := h.yaml_version hf
  cases e
  obtain ⟨w', hw', e, rfl⟩ := h.yaml_version hg
  cases e
  rw [h.linked.inj h.names' hv' hw' hv hw]

/-- One way to merge: the files of the first copy, and those of the second that are not in the first. -/
def mergeDirs (d₁ d₂ : HDir) : HDir := d₁ ++ d₂.filter fun x => x.1 ∉ d₁.keys

theorem get?_mergeDirs (d₁ d₂ : HDir) (f : String) : (mergeDirs d₁ d₂).get? f = (d₁.get? f).or (d₂.get? f) := by
  unfold mergeDirs
  have h2 : ∀ l : HDir, f ∉ d₁.keys → AMap.get? (l.filter fun x => x.1 ∉ d₁.keys) f = l.get? f := by
    intro l hf
    induction l with
    | nil => rfl
    | cons x l ih =>
      rw [List.filter_cons]
      split
      · simp only [AMap.get?_cons, ih]
      · next hx =>
        rw [ih, AMap.get?_cons, if_neg]
        intro e
        simp only [decide_not, Bool.not_eq_true', decide_eq_false_iff_not, Classical.not_not] at hx
        exact hf (e ▸ hx)
  rw [AMap.get?_append]
  cases hg : d₁.get? f with
  | some e => rfl
  | none =>
    rw [h2 _ (AMap.get?_eq_none_iff.1 hg)]

theorem mergeDirs_merged (h₁ : IsHistory d₁ vs₁ st₁) (h₂ : d₂.NodupKeys)
    (hc : ∀ x ∈ d₁, ∀ y ∈ d₂, x.1 = y.1 → x.1 ≠ "stage.yaml" → x.2 = y.2) : Merged d₁ d₂ (mergeDirs d₁ d₂) where
  nodup := by
    unfold mergeDirs AMap.NodupKeys AMap.keys
    rw [List.map_append, List.nodup_append]
    refine ⟨h₁.nodup, (List.filter_sublist.map _).nodup h₂, ?_⟩
    intro a ha b hb e
    obtain ⟨x, hx, rfl⟩ := List.mem_map.1 hb
    have := (List.mem_filter.1 hx).2
    simp only [decide_not, Bool.not_eq_true', decide_eq_false_iff_not] at this
    exact this (e ▸ ha)
  either f e h := by
    rw [get?_mergeDirs] at h
    cases hg : d₁.get? f with
    | some e' => rw [hg] at h; exact .inl h
    | none => rw [hg] at h; exact .inr h
  kept f e hf h := by
    rw [get?_mergeDirs]
    cases hg : d₁.get? f with
    | some e' =>
      rcases h with h | h
      · rw [hg] at h; exact h
      · exact congrArg some (hc _ (AMap.mem_of_get? hg) _ (AMap.mem_of_get? h) rfl hf)
    | none =>
      rcases h with h | h
      · rw [hg] at h; cases h
      · exact h
  stage := by
    rw [get?_mergeDirs, show d₁.get? "stage.yaml" = _ from h₁.stored_stage]
    simp

end Podo
