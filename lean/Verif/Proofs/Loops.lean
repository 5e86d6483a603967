import Verif.Proofs.History
/-
When the loops of /repo/src/history/fsh.rs end.
-/
namespace Podo

/-- Going on along `next` from `c`; a dead end is passed over. -/
def chase (next : String → Option String) (c : String) : Nat → String
  | 0 => c
  | i + 1 => (next (chase next c i)).getD ""

/-- Names taken from a finite list repeat. -/
theorem repeats {f : Nat → String} {l : List String} (h : ∀ i, f i ∈ l) : ∃ i j, i < j ∧ f i = f j := by
  apply Classical.byContradiction
  intro hn
  have hnd : ((List.range (l.length + 1)).map f).Nodup := by
    unfold List.Nodup
    rw [List.pairwise_map]
    exact List.pairwise_lt_range.imp fun {a b} hab he => hn ⟨a, b, hab, he⟩
  have := length_le_of_nodup_subset hnd (m := l) (by
    intro x hx
    obtain ⟨i, _, rfl⟩ := List.mem_map.1 hx
    exact h i)
  simp at this
  omega

theorem LeadsTo.snoc {d : HDir} {a b c : String} (h : LeadsTo d a b) (hf : Follows d b c) : LeadsTo d a c := by
  induction h with
  | here => exact .step hf (.here _)
  | step h _ ih => exact .step h (ih hf)

theorem leadsTo_seq {d : HDir} {f : Nat → String} (h : ∀ i, Follows d (f i) (f (i + 1))) (i k : Nat) :
    LeadsTo d (f i) (f (i + k)) := by
  induction k with
  | zero => exact .here _
  | succ k ih => exact ih.snoc (h _)

/-- The links that opening finds, when it finds no fault. -/
theorem scan_spec {d : HDir} (hd : d.NodupKeys) (hp : PlainNames d) {nm : AMap String}
    (h : HDir.scan d d [] = .ok nm) :
    AllReadable d ∧ (¬ ∃ p a b, Branch d p a b) ∧ ∀ p n, nm.get? p = some n ↔ Follows d p n := by
  have hsub : ∀ x ∈ d, x ∈ d := fun _ h => h
  obtain ⟨h1, h2, h3⟩ := (scan_ok_iff _ _ _ _ AMap.nodupKeys_nil).1 h
  simp only [List.nil_append] at h2 h3
  subst h3
  refine ⟨?_, ?_, fun p n => ?_⟩
  · rintro f c ⟨hf, hs⟩
    obtain ⟨v, hv⟩ := h1 _ ((mem_reads hd hp hsub).2 ⟨f, c, hf, hs, rfl⟩)
    cases c with
    | none => cases hv
    | some w => exact ⟨w, rfl⟩
  · rintro ⟨p, a, b, f, g, v, w, hfg, hf, hg, hv, hw, _, _⟩
    exact (links_nodup_iff hd hp (List.Sublist.refl _)).1 h2
      ⟨f, g, v, w, p, hfg, hf.1, hg.1, hf.2, hg.2, hv, hw⟩
  · rw [AMap.get?_iff_mem h2, mem_links hd hp hsub]
    constructor
    · rintro ⟨f, v, hf, hs, hv, hn⟩; exact ⟨f, v, ⟨hf, hs⟩, hv, hn⟩
    · rintro ⟨f, v, ⟨hf, hs⟩, hv, hn⟩; exact ⟨f, v, hf, hs, hv, hn⟩

theorem scan_ok_of {d : HDir} (hd : d.NodupKeys) (hp : PlainNames d) (ha : AllReadable d)
    (hb : ¬ ∃ p a b, Branch d p a b) : ∃ nm, HDir.scan d d [] = .ok nm := by
  have hsub : ∀ x ∈ d, x ∈ d := fun _ h => h
  refine ⟨links (reads d d), (scan_ok_iff _ _ _ _ AMap.nodupKeys_nil).2 ⟨?_, ?_, by simp⟩⟩
  · intro r hr
    obtain ⟨f, c, hf, hy, rfl⟩ := (mem_reads hd hp hsub).1 hr
    obtain ⟨v, rfl⟩ := ha f c ⟨hf, hy⟩
    exact ⟨v, rfl⟩
  · simp only [List.nil_append]
    rw [links_nodup_iff hd hp (List.Sublist.refl _)]
    rintro ⟨f, g, v, w, p, hfg, hf, hg, hyf, hyg, hv, hw⟩
    exact hb ⟨p, v.name, w.name, f, g, v, w, hfg, ⟨hf, hyf⟩, ⟨hg, hyg⟩, hv, hw, rfl, rfl⟩

/-- The walk goes on for ever exactly along an endless sequence of links. -/
theorem walk_loops {nm : AMap String} {c : String} (h : ∀ fuel, ∀ cv, HDir.walk nm fuel c cv = none) (i : Nat) :
    nm.get? (chase nm.get? c i) = some (chase nm.get? c (i + 1)) := by
  have key : ∀ i, ∀ fuel, ∀ cv, HDir.walk nm fuel (chase nm.get? c i) cv = none := by
    intro i
    induction i with
    | zero => exact h
    | succ i ih =>
      intro fuel cv
      have := ih (fuel + 1) cv
      rw [HDir.walk] at this
      cases hg : nm.get? (chase nm.get? c i) with
      | none => rw [hg] at this; cases this
      | some n =>
        rw [chase, hg, Option.getD_some]
        rw [hg] at this
        have h2 := ih (fuel + 1) cv
        clear this
        cases fuel with
        | zero => rfl
        | succ fuel =>
          have h3 := ih (fuel + 2) cv
          rw [HDir.walk, hg] at h3
          simp only at h3
          rw [HDir.walk] at h3 ⊢
          cases hn : nm.get? n with
          | none => rw [hn] at h3; cases h3
          | some m => rw [hn] at h3; exact h3
  have := key i 1 ""
  rw [HDir.walk] at this
  cases hg : nm.get? (chase nm.get? c i) with
  | none => rw [hg] at this; cases this
  | some n => rw [chase, hg, Option.getD_some]

/-- Whether the walk ends does not depend on the name it remembers. -/
theorem walk_none {nm : AMap String} {n : Nat} {c cv cv' : String} (h : HDir.walk nm n c cv = none) :
    HDir.walk nm n c cv' = none := by
  cases n with
  | zero => rfl
  | succ n =>
    rw [HDir.walk] at h ⊢
    cases hg : nm.get? c with
    | none => rw [hg] at h; cases h
    | some m => rw [hg] at h; exact h

theorem fromDir_ok {d : HDir} {nm : AMap String} (hs : HDir.scan d d [] = .ok nm) (fuel : Nat) :
    HDir.fromDir fuel d = (HDir.walk nm fuel "init" Version.INIT).map fun cv => .ok ⟨nm, cv⟩ := by
  unfold HDir.fromDir
  rw [hs]
  simp only
  cases HDir.walk nm fuel "init" Version.INIT <;> rfl

theorem open_loops_iff {d : HDir} (hd : d.NodupKeys) (hp : PlainNames d) :
    (∀ fuel, HDir.fromDir fuel d = none) ↔ AllReadable d ∧ (¬ ∃ p a b, Branch d p a b) ∧
      ∃ c n, LeadsTo d "init" c ∧ Follows d c n ∧ LeadsTo d n c := by
  constructor
  · intro h
    cases hs : HDir.scan d d [] with
    | error e => have := h 0; unfold HDir.fromDir at this; rw [hs] at this; cases this
    | ok nm =>
      obtain ⟨ha, hb, hl⟩ := scan_spec hd hp hs
      refine ⟨ha, hb, ?_⟩
      have hw : ∀ fuel, ∀ cv, HDir.walk nm fuel "init" cv = none := by
        intro fuel cv
        have := h fuel
        rw [fromDir_ok hs] at this
        exact walk_none (Option.map_eq_none_iff.1 this)
      have hf : ∀ i, Follows d (chase nm.get? "init" i) (chase nm.get? "init" (i + 1)) :=
        fun i => (hl _ _).1 (walk_loops hw i)
      obtain ⟨i, j, hij, he⟩ := repeats (f := chase nm.get? "init") (l := nm.keys) fun i =>
        AMap.mem_keys_of_get? (walk_loops hw i)
      have h0 := leadsTo_seq hf 0 i
      rw [Nat.zero_add] at h0
      refine ⟨_, _, h0, hf i, ?_⟩
      have h1 := leadsTo_seq hf (i + 1) (j - (i + 1))
      rw [show i + 1 + (j - (i + 1)) = j by omega, ← he] at h1
      exact h1
  · rintro ⟨ha, hb, c, n, _, hcn, hnc⟩ fuel
    obtain ⟨nm, hs⟩ := scan_ok_of hd hp ha hb
    obtain ⟨_, _, hl⟩ := scan_spec hd hp hs
    have key : ∀ fuel, ∀ x, LeadsTo d x c → ∀ cv, HDir.walk nm fuel x cv = none := by
      intro fuel
      induction fuel with
      | zero => intros; rfl
      | succ fuel ih =>
        intro x hx cv
        obtain ⟨y, hy, hyc⟩ : ∃ y, Follows d x y ∧ LeadsTo d y c := by
          cases hx with
          | here => exact ⟨n, hcn, hnc⟩
          | step h1 h2 => exact ⟨_, h1, h2⟩
        rw [HDir.walk, (hl _ _).2 hy]
        exact ih y hyc x
    rw [fromDir_ok hs, key fuel "init" (by assumption)]
    rfl

theorem walk_leadsTo {d : HDir} {nm : AMap String} (hl : ∀ p n, nm.get? p = some n ↔ Follows d p n) {a b : String}
    (h : LeadsTo d a b) (cv : String) : ∃ k cv', ∀ m, HDir.walk nm (k + m) a cv = HDir.walk nm m b cv' := by
  induction h generalizing cv with
  | here a => exact ⟨0, cv, fun m => by rw [Nat.zero_add]⟩
  | @step a n b h1 h2 ih =>
    obtain ⟨k, cv', hk⟩ := ih a
    refine ⟨k + 1, cv', fun m => ?_⟩
    rw [show k + 1 + m = k + m + 1 by omega, HDir.walk, (hl _ _).2 h1]
    exact hk m

theorem walk_ends_at {d : HDir} {nm : AMap String} (hl : ∀ p n, nm.get? p = some n ↔ Follows d p n) {k : Nat}
    {a cv r : String} (h : HDir.walk nm k a cv = some r) :
    ∃ last, LeadsTo d a last ∧ (¬ ∃ n, Follows d last n) ∧
      (last = a ∧ r = cv ∨ LeadsTo d a r ∧ Follows d r last) := by
  induction k generalizing a cv with
  | zero => cases h
  | succ k ih =>
    rw [HDir.walk] at h
    cases hg : nm.get? a with
    | none =>
      rw [hg] at h
      cases h
      refine ⟨a, .here a, ?_, .inl ⟨rfl, rfl⟩⟩
      rintro ⟨n, hn⟩
      rw [(hl _ _).2 hn] at hg
      cases hg
    | some n =>
      rw [hg] at h
      have hf := (hl _ _).1 hg
      obtain ⟨last, h1, h2, h3⟩ := ih h
      refine ⟨last, .step hf h1, h2, .inr ?_⟩
      rcases h3 with ⟨rfl, rfl⟩ | ⟨h3, h4⟩
      · exact ⟨.here _, hf⟩
      · exact ⟨.step hf h3, h4⟩

theorem opens_iff {d : HDir} (hd : d.NodupKeys) (hp : PlainNames d) (cv : String) :
    (∃ fuel nm, HDir.fromDir fuel d = some (.ok ⟨nm, cv⟩)) ↔
      AllReadable d ∧ (¬ ∃ p a b, Branch d p a b) ∧
      ∃ last, LeadsTo d "init" last ∧ (¬ ∃ n, Follows d last n) ∧
        (last = "init" ∧ cv = "init" ∨ LeadsTo d "init" cv ∧ Follows d cv last) := by
  constructor
  · rintro ⟨fuel, nm', h⟩
    cases hs : HDir.scan d d [] with
    | error e => unfold HDir.fromDir at h; rw [hs] at h; cases h
    | ok nm =>
      obtain ⟨ha, hb, hl⟩ := scan_spec hd hp hs
      rw [fromDir_ok hs] at h
      obtain ⟨r, hr, he⟩ := Option.map_eq_some_iff.1 h
      cases he
      exact ⟨ha, hb, walk_ends_at hl hr⟩
  · rintro ⟨ha, hb, last, h1, h2, h3⟩
    obtain ⟨nm, hs⟩ := scan_ok_of hd hp ha hb
    obtain ⟨_, _, hl⟩ := scan_spec hd hp hs
    have hlast : nm.get? last = none := by
      cases hg : nm.get? last with
      | none => rfl
      | some n => exact absurd ⟨n, (hl _ _).1 hg⟩ h2
    rcases h3 with ⟨rfl, rfl⟩ | ⟨h3, h4⟩
    · refine ⟨1, nm, ?_⟩
      rw [fromDir_ok hs, HDir.walk, hlast]
      rfl
    · obtain ⟨k, cv', hk⟩ := walk_leadsTo hl h3 Version.INIT
      refine ⟨k + 2, nm, ?_⟩
      rw [fromDir_ok hs, hk, HDir.walk, (hl _ _).2 h4]
      simp only
      rw [HDir.walk, hlast]
      rfl

/-! ### Ranges -/

theorem VersionPath.prepend {d : HDir} {a b y : String} {l : List String} (h : VersionPath d a b l) {v w : Version}
    (ha : Stored d a v) (hv : v.previous = some y) (hy : Stored d y w) : ∃ l', VersionPath d y b l' := by
  induction h with
  | here => exact ⟨_, .later (.here hy) ha hv⟩
  | later _ hs hp ih =>
    obtain ⟨l', h'⟩ := ih
    exact ⟨_, .later h' hs hp⟩

theorem VersionPath.stored_end {d : HDir} {a b : String} {l : List String} (h : VersionPath d a b l) :
    ∃ v, Stored d b v := by
  cases h with
  | here h => exact ⟨_, h⟩
  | later _ h _ => exact ⟨_, h⟩

/-- The version before `n`, if its file can be read. -/
def before (d : HDir) (n : String) : Option String :=
  match d.getVersion n with
  | .ok v => v.previous
  | .error _ => none

theorem rangeLoop_none {d : HDir} {a b c : String} {n : Nat} {acc acc' : List String}
    (h : HDir.rangeLoop d a b n c acc = none) : HDir.rangeLoop d a b n c acc' = none := by
  induction n generalizing c acc acc' with
  | zero => rfl
  | succ n ih =>
    rw [HDir.rangeLoop] at h ⊢
    cases hg : d.getVersion c with
    | error e => rw [hg] at h; cases h
    | ok v =>
      rw [hg] at h
      simp only at h ⊢
      split at h
      · cases h
      · next hca =>
        rw [if_neg hca]
        cases hv : v.previous with
        | none => rw [hv] at h; cases h
        | some p => rw [hv] at h; exact ih h

theorem rangeLoop_loops {d : HDir} {a b c : String} (h : ∀ fuel, HDir.rangeLoop d a b fuel c [] = none) (i : Nat) :
    chase (before d) c i ≠ a ∧ ∃ v, Stored d (chase (before d) c i) v ∧
      v.previous = some (chase (before d) c (i + 1)) := by
  have step : ∀ x, (∀ fuel, HDir.rangeLoop d a b fuel x [] = none) →
      x ≠ a ∧ ∃ v p, Stored d x v ∧ v.previous = some p ∧ before d x = some p ∧
        ∀ fuel, HDir.rangeLoop d a b fuel p [] = none := by
    intro x hx
    have h1 := hx 1
    rw [HDir.rangeLoop] at h1
    cases hg : d.getVersion x with
    | error e => rw [hg] at h1; cases h1
    | ok v =>
      rw [hg] at h1
      simp only at h1
      split at h1
      · cases h1
      · next hxa =>
        cases hv : v.previous with
        | none => rw [hv] at h1; cases h1
        | some p =>
          refine ⟨hxa, v, p, stored_iff.2 hg, hv, by unfold before; rw [hg]; exact hv, fun fuel => ?_⟩
          have h2 := hx (fuel + 1)
          rw [HDir.rangeLoop, hg] at h2
          simp only [hxa, if_false, hv] at h2
          exact rangeLoop_none h2
  have key : ∀ i, ∀ fuel, HDir.rangeLoop d a b fuel (chase (before d) c i) [] = none := by
    intro i
    induction i with
    | zero => exact h
    | succ i ih =>
      obtain ⟨_, v, p, _, _, hb, hp⟩ := step _ ih
      rw [chase, hb]
      exact hp
  obtain ⟨h1, v, p, hs, hv, hb, _⟩ := step _ (key i)
  refine ⟨h1, v, hs, ?_⟩
  rw [chase, hb]
  exact hv

theorem onPath_seq {d : HDir} {f : Nat → String} (h : ∀ i, ∃ v, Stored d (f i) v ∧ v.previous = some (f (i + 1)))
    (i k : Nat) : ∃ l, VersionPath d (f (i + k)) (f i) l := by
  induction k with
  | zero => obtain ⟨v, hv, _⟩ := h i; exact ⟨_, .here hv⟩
  | succ k ih =>
    obtain ⟨l, hl⟩ := ih
    obtain ⟨v, hv, hp⟩ := h (i + k)
    obtain ⟨w, hw, _⟩ := h (i + k + 1)
    exact hl.prepend hv hp hw

theorem range_loops_iff {d : HDir} {a b : String} :
    (∀ fuel, HDir.upwardRange fuel d a b = none) ↔ ¬ OnPath d a b ∧
      ∃ c v p, OnPath d c b ∧ Stored d c v ∧ v.previous = some p ∧ OnPath d c p := by
  unfold HDir.upwardRange
  constructor
  · intro h
    have hf := rangeLoop_loops h
    have hf' := fun i => (hf i).2
    refine ⟨?_, ?_⟩
    · rintro ⟨l, hl⟩
      have key : ∀ x l, VersionPath d a x l → ∀ i, x = chase (before d) b i → False := by
        intro x l hx
        induction hx with
        | here => intro i hi; exact (hf i).1 hi.symm
        | later _ hs hp ih =>
          intro i hi
          obtain ⟨v, hv, hvp⟩ := hf' i
          rw [← hi] at hv
          have := hs.unique hv
          subst this
          rw [hp] at hvp
          cases hvp
          exact ih (i + 1) rfl
      exact key b l hl 0 rfl
    · obtain ⟨i, j, hij, he⟩ := repeats (f := fun i => chase (before d) b i ++ ".yaml") (l := d.keys) fun i => by
        obtain ⟨v, hv, _⟩ := hf' i
        exact AMap.mem_keys_of_get? hv
      have he := append_yaml_inj he
      obtain ⟨v, hv, hp⟩ := hf' i
      have h0 := onPath_seq hf' 0 i
      rw [Nat.zero_add] at h0
      have h1 := onPath_seq hf' (i + 1) (j - (i + 1))
      rw [show i + 1 + (j - (i + 1)) = j by omega, ← he] at h1
      exact ⟨_, v, _, h0, hv, hp, h1⟩
  · rintro ⟨hna, c, v, p, hcb, hcv, hvp, hcp⟩ fuel
    have key : ∀ fuel, ∀ x, OnPath d c x → OnPath d x b → ∀ acc, HDir.rangeLoop d a b fuel x acc = none := by
      intro fuel
      induction fuel with
      | zero => intros; rfl
      | succ fuel ih =>
        intro x hcx hxb acc
        obtain ⟨w, y, hw, hwy, hcy⟩ : ∃ w y, Stored d x w ∧ w.previous = some y ∧ OnPath d c y := by
          obtain ⟨l, hl⟩ := hcx
          cases hl with
          | here h => exact ⟨v, p, hcv, hvp, hcp⟩
          | later h1 h2 h3 => exact ⟨_, _, h2, h3, _, h1⟩
        have hxa : x ≠ a := by rintro rfl; exact hna hxb
        rw [HDir.rangeLoop, stored_iff.1 hw]
        simp only [hxa, if_false, hwy]
        obtain ⟨l, hl⟩ := hxb
        obtain ⟨u, hu⟩ := hcy.elim fun _ h => h.stored_end
        exact ih y hcy (hl.prepend hw hwy hu) _
    exact key fuel b hcb (hcb.elim fun _ h => h.stored_end.elim fun _ hb => ⟨_, .here hb⟩) []

end Podo
