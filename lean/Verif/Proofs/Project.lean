import Verif.Spec.Project
/-
Lemmas about the configuration.
-/
set_option linter.unusedSimpArgs false
namespace Podo
namespace Proj

theorem takeWhile_append_name {word : Char → Bool} {n rest : List Char} (hn : ∀ c ∈ n, word c = true)
    (hr : ∀ c, rest.head? = some c → word c = false) :
    (n ++ rest).takeWhile word = n ∧ (n ++ rest).dropWhile word = rest := by
  induction n with
  | nil =>
    cases rest with
    | nil => exact ⟨rfl, rfl⟩
    | cons c cs =>
      have := hr c rfl
      simp [List.takeWhile, List.dropWhile, this]
  | cons a as ih =>
    have ha := hn a (by simp)
    obtain ⟨h1, h2⟩ := ih (fun c hc => hn c (by simp [hc]))
    simp [List.takeWhile, List.dropWhile, ha, h1, h2]

theorem reference_plain {word : Char → Bool} {n rest : List Char} (hn : IsName word n)
    (hr : ∀ c, rest.head? = some c → word c = false) :
    reference word (n ++ rest) = some (n, rest) := by
  obtain ⟨h1, h2⟩ := takeWhile_append_name hn.2 hr
  unfold reference
  rw [h1, h2]
  cases n with
  | nil => exact absurd rfl hn.1
  | cons a as => rfl

theorem reference_braced {word : Char → Bool} (ho : word '{' = false) (hc : word '}' = false)
    {n rest : List Char} (hn : IsName word n) :
    reference word ('{' :: (n ++ '}' :: rest)) = some (n, rest) := by
  obtain ⟨h1, h2⟩ := takeWhile_append_name (rest := '}' :: rest) hn.2
    (fun c h => by simp only [List.head?_cons, Option.some.injEq] at h; subst h; exact hc)
  unfold reference
  have : ('{' :: (n ++ '}' :: rest)).takeWhile word = [] := by simp [List.takeWhile, ho]
  rw [this]
  simp only [h1, h2]
  cases n with
  | nil => exact absurd rfl hn.1
  | cons a as => rfl

theorem takeWhile_word (word : Char → Bool) (cs : List Char) :
    (∀ c ∈ cs.takeWhile word, word c = true) ∧ cs = cs.takeWhile word ++ cs.dropWhile word ∧
      ∀ c, (cs.dropWhile word).head? = some c → word c = false := by
  induction cs with
  | nil => simp
  | cons a as ih =>
    obtain ⟨h1, h2, h3⟩ := ih
    cases ha : word a with
    | true =>
      simp only [List.takeWhile, List.dropWhile, ha, List.mem_cons, forall_eq_or_imp, List.cons_append,
        List.cons.injEq, true_and]
      exact ⟨h1, h2, h3⟩
    | false =>
      simp only [List.takeWhile, List.dropWhile, ha, List.not_mem_nil, false_imp_iff, implies_true,
        List.nil_append, true_and, List.head?_cons, Option.some.injEq]
      rintro c rfl; exact ha

theorem reference_some {word : Char → Bool} {cs n rest : List Char}
    (h : reference word cs = some (n, rest)) :
    IsName word n ∧ ((cs = n ++ rest ∧ ∀ c, rest.head? = some c → word c = false) ∨
      cs = '{' :: (n ++ '}' :: rest)) := by
  unfold reference at h
  split at h
  · next c w hw =>
    injection h with h
    injection h with h1 h2
    subst h1 h2
    obtain ⟨a, b, d⟩ := takeWhile_word word cs
    rw [hw] at a b
    exact ⟨⟨by simp, a⟩, .inl ⟨b, d⟩⟩
  · split at h
    · next r hw =>
      split at h
      · next c w rest' h1 h2 =>
        injection h with h
        injection h with e1 e2
        subst e1 e2
        obtain ⟨a, b, _⟩ := takeWhile_word word r
        rw [h1] at a b
        rw [h2] at b
        refine ⟨⟨by simp, a⟩, .inr ?_⟩
        rw [← b]
      · cases h
    · cases h

theorem reference_none {word : Char → Bool} (ho : word '{' = false) (hc : word '}' = false)
    {cs : List Char} : reference word cs = none ↔ ¬ Refers word cs := by
  constructor
  · rintro h ⟨n, rest, hn, rfl | rfl⟩
    · obtain ⟨m, rest', e, hr⟩ : ∃ m rest', n ++ rest = m ++ rest' ∧ IsName word m ∧
          ∀ c, rest'.head? = some c → word c = false := by
        obtain ⟨a, b, c⟩ := takeWhile_word word (n ++ rest)
        refine ⟨_, _, b, ⟨?_, a⟩, c⟩
        cases n with
        | nil => exact absurd rfl hn.1
        | cons x xs =>
          have := hn.2 x (by simp)
          simp [List.takeWhile, this]
      rw [e, reference_plain hr.1 hr.2] at h
      cases h
    · rw [reference_braced ho hc hn] at h
      cases h
  · intro h
    cases hr : reference word cs with
    | none => rfl
    | some p =>
      obtain ⟨n, rest⟩ := p
      obtain ⟨hn, ⟨e, _⟩ | e⟩ := reference_some hr
      · exact absurd ⟨n, rest, hn, .inl e⟩ h
      · exact absurd ⟨n, rest, hn, .inr e⟩ h

theorem expandLoop_reading {env : Env} (ho : env.word '{' = false) (hc : env.word '}' = false)
    (hd : env.word '$' = false) : ∀ (ps : List Piece) (n : Nat), Reading env.word ps →
    (ps.flatMap Piece.text).length < n →
    expandLoop env n (ps.flatMap Piece.text) = ps.flatMap (Piece.value env)
  | [], 0, _, h => by simp at h
  | [], n + 1, _, _ => rfl
  | p :: ps, 0, _, h => by simp at h
  | .char c :: ps, n + 1, hr, hl => by
    simp only [Reading] at hr
    simp only [List.flatMap_cons, Piece.text, Piece.value, List.singleton_append, List.length_cons,
      List.cons_append, List.nil_append] at hl ⊢
    have ih := expandLoop_reading ho hc hd ps n hr.2 (by omega)
    unfold expandLoop
    by_cases h : c = '$'
    · rw [if_pos h, (reference_none ho hc).2 (hr.1 h)]
      simp only [ih]
    · rw [if_neg h, ih]
  | .var m true :: ps, n + 1, hr, hl => by
    simp only [Reading] at hr
    have ih := expandLoop_reading ho hc hd ps n hr.2.2 (by
      simp only [List.flatMap_cons, Piece.text, List.length_append, List.length_cons] at hl; omega)
    have e : (Piece.var m true :: ps).flatMap Piece.text =
        '$' :: '{' :: (m ++ '}' :: ps.flatMap Piece.text) := by
      simp [List.flatMap_cons, Piece.text]
    rw [e]
    unfold expandLoop
    rw [if_pos rfl, reference_braced ho hc hr.1]
    simp only [ih, List.flatMap_cons, Piece.value]
  | .var m false :: ps, n + 1, hr, hl => by
    simp only [Reading] at hr
    have ih := expandLoop_reading ho hc hd ps n hr.2.2 (by
      simp only [List.flatMap_cons, Piece.text, List.length_append, List.length_cons] at hl; omega)
    have e : (Piece.var m false :: ps).flatMap Piece.text = '$' :: (m ++ ps.flatMap Piece.text) := by
      simp [List.flatMap_cons, Piece.text]
    rw [e]
    unfold expandLoop
    rw [if_pos rfl, reference_plain hr.1 (hr.2.1 trivial)]
    simp only [ih, List.flatMap_cons, Piece.value]

theorem exists_reading {word : Char → Bool} (ho : word '{' = false) (hc : word '}' = false) :
    ∀ (n : Nat) (s : List Char), s.length ≤ n →
      ∃ ps, Reading word ps ∧ ps.flatMap Piece.text = s
  | _, [], _ => ⟨[], trivial, rfl⟩
  | 0, _ :: _, h => by simp at h
  | n + 1, c :: cs, h => by
    simp only [List.length_cons, Nat.add_le_add_iff_right] at h
    by_cases hd : c = '$'
    · subst hd
      cases hr : reference word cs with
      | none =>
        obtain ⟨ps, h1, h2⟩ := exists_reading ho hc n cs h
        refine ⟨.char '$' :: ps, ⟨fun _ => ?_, h1⟩, by simp [Piece.text, h2]⟩
        rw [h2]
        exact (reference_none ho hc).1 hr
      | some p =>
        obtain ⟨m, rest⟩ := p
        obtain ⟨hm, ⟨e, hw⟩ | e⟩ := reference_some hr
        · subst e
          obtain ⟨ps, h1, h2⟩ := exists_reading ho hc n rest (by
            simp only [List.length_append] at h; omega)
          refine ⟨.var m false :: ps, ⟨hm, fun _ => ?_, h1⟩, by simp [Piece.text, h2]⟩
          rw [h2]; exact hw
        · subst e
          obtain ⟨ps, h1, h2⟩ := exists_reading ho hc n rest (by
            simp only [List.length_append, List.length_cons] at h; omega)
          refine ⟨.var m true :: ps, ?_, by simp [Piece.text, h2]⟩
          exact ⟨hm, fun h => (by cases h), h1⟩
    · obtain ⟨ps, h1, h2⟩ := exists_reading ho hc n cs h
      exact ⟨.char c :: ps, ⟨fun h => absurd h hd, h1⟩, by simp [Piece.text, h2]⟩

/-! ### Discovery -/

theorem above_snoc {d ds : Path} {x : String} :
    Above d (ds ++ [x]) ↔ d = ds ++ [x] ∨ Above d ds := by
  unfold Above
  rw [List.prefix_concat_iff]

theorem discoverUp_nearest {env : Env} {fs : Fs} : ∀ (r : List String) (d : Path),
    Nearest fs r.reverse d → ∃ y, fs.config d = some y ∧
      discoverUp env fs.config r = loadProject env d y
  | [], d, h => by
    have : d = [] := by simpa [Above] using h.above
    subst this
    cases hc : fs.config [] with
    | none => exact absurd hc h.has
    | some y => exact ⟨y, rfl, by unfold discoverUp; rw [hc]⟩
  | x :: xs, d, h => by
    unfold discoverUp
    cases hc : fs.config (x :: xs).reverse with
    | some y =>
      have : Above (x :: xs).reverse d := h.closest _ (List.prefix_refl _) (by rw [hc]; simp)
      have e : d = (x :: xs).reverse :=
        (h.above.eq_of_length_le this.length_le)
      subst e
      exact ⟨y, hc, rfl⟩
    | none =>
      have h' : Nearest fs xs.reverse d := by
        have ha := h.above
        rw [List.reverse_cons, above_snoc] at ha
        rcases ha with rfl | ha
        · rw [← List.reverse_cons] at h
          exact absurd hc h.has
        · refine ⟨ha, h.has, fun d' h1 h2 => h.closest d' ?_ h2⟩
          rw [List.reverse_cons, above_snoc]; exact .inr h1
      exact discoverUp_nearest xs d h'

theorem discoverUp_notFound {env : Env} {config : Path → Option (Option YProject)} {d : Path} :
    ∀ r : List String, discoverUp env config r = .error (.projectNotFound d) → d = []
  | [], h => by
    unfold discoverUp at h
    split at h
    · next y _ => cases y <;> cases h
    · cases h; rfl
  | x :: xs, h => by
    unfold discoverUp at h
    split at h
    · next y _ => cases y <;> cases h
    · exact discoverUp_notFound xs h

theorem discoverUp_none {env : Env} {fs : Fs} : ∀ r : List String,
    discoverUp env fs.config r = .error (.projectNotFound []) ↔
      ∀ d, Above d r.reverse → fs.config d = none
  | [] => by
    unfold discoverUp
    constructor
    · intro h d hd
      have : d = [] := by simpa [Above] using hd
      subst this
      cases hc : fs.config [] with
      | none => rfl
      | some y => rw [hc] at h; cases y <;> cases h
    · intro h
      rw [h [] (List.prefix_refl _)]
  | x :: xs => by
    unfold discoverUp
    constructor
    · intro h d hd
      cases hc : fs.config (x :: xs).reverse with
      | some y => rw [hc] at h; cases y <;> cases h
      | none =>
        rw [hc] at h
        rw [List.reverse_cons, above_snoc, ← List.reverse_cons] at hd
        rcases hd with rfl | hd
        · exact hc
        · exact (discoverUp_none xs).1 h d hd
    · intro h
      rw [h _ (List.prefix_refl _)]
      refine (discoverUp_none xs).2 fun d hd => h d ?_
      rw [List.reverse_cons, above_snoc]; exact .inr hd

theorem exists_nearest {fs : Fs} : ∀ r : List String,
    (∃ d, Nearest fs r.reverse d) ∨ ∀ d, Above d r.reverse → fs.config d = none
  | [] => by
    cases hc : fs.config [] with
    | none =>
      refine .inr fun d hd => ?_
      have : d = [] := by simpa [Above] using hd
      subst this; exact hc
    | some y =>
      exact .inl ⟨[], List.prefix_refl _, by rw [hc]; simp, fun d hd _ => hd⟩
  | x :: xs => by
    cases hc : fs.config (x :: xs).reverse with
    | some y => exact .inl ⟨_, List.prefix_refl _, by rw [hc]; simp, fun d hd _ => hd⟩
    | none =>
      rcases exists_nearest (fs := fs) xs with ⟨d, hd⟩ | h
      · refine .inl ⟨d, ?_, hd.has, fun d' h1 h2 => ?_⟩
        · rw [List.reverse_cons, above_snoc]; exact .inr hd.above
        · rw [List.reverse_cons, above_snoc, ← List.reverse_cons] at h1
          rcases h1 with rfl | h1
          · exact absurd hc h2
          · exact hd.closest d' h1 h2
      · refine .inr fun d hd => ?_
        rw [List.reverse_cons, above_snoc, ← List.reverse_cons] at hd
        rcases hd with rfl | hd
        · exact hc
        · exact h d hd

/-! ### Profiles -/

theorem findProfile_map {env : Env} {base : Path} {name : String} : ∀ y : YProject,
    findProfile name (y.map fun e => loadProfile env base e.1 e.2) =
      (y.get? name).map (loadProfile env base name)
  | [] => rfl
  | (k, v) :: y => by
    simp only [List.map_cons, findProfile, loadProfile, AMap.get?]
    by_cases h : k = name
    · subst h; simp [loadProfile]
    · have h' : (k == name) = false := by simpa using h
      have ih := findProfile_map (env := env) (base := base) (name := name) y
      simp only [loadProfile] at ih
      simp [h, ih, loadProfile, AMap.get?]

theorem profile_iff {env : Env} {base : Path} {y : YProject} {p : Project} {name : String}
    (h : loadProject env base (some y) = .ok p) {q : Profile} :
    p.profile name = .ok q ↔ ∃ c, y.get? name = some c ∧ q = loadProfile env base name c := by
  injection h with h
  subst h
  unfold Project.profile
  simp only [findProfile_map]
  cases y.get? name with
  | none => simp
  | some c => simp [eq_comm]

/-! ### Paths -/

theorem splitSlash_ne (s : List Char) : splitSlash s ≠ [] := by
  cases s with
  | nil => simp [splitSlash]
  | cons c cs =>
    unfold splitSlash
    split
    · simp
    · split <;> simp

theorem splitSlash_entry : ∀ (n : List Char), '/' ∉ n →
    splitSlash n = [n] ∧ ∀ t, splitSlash (n ++ '/' :: t) = n :: splitSlash t
  | [], _ => ⟨rfl, fun _ => rfl⟩
  | c :: cs, h => by
    simp only [List.mem_cons, not_or] at h
    obtain ⟨h1, h2⟩ := splitSlash_entry cs h.2
    have hc : ¬ c = '/' := fun e => h.1 e.symm
    refine ⟨?_, fun t => ?_⟩
    · unfold splitSlash; rw [if_neg hc, h1]
    · rw [List.cons_append, splitSlash, if_neg hc, h2]

theorem components_slash (t : List Char) : components ('/' :: t) = components t := by
  simp [components, splitSlash]

theorem components_entry {n t : List Char} (hs : '/' ∉ n) (ht : t = [] ∨ t.head? = some '/') :
    components (n ++ t) = components n ++ components t := by
  obtain ⟨h1, h2⟩ := splitSlash_entry n hs
  have h0 : components [] = [] := by simp [components, splitSlash]
  cases t with
  | nil => rw [List.append_nil, h0, List.append_nil]
  | cons c t =>
    rcases ht with ht | ht
    · cases ht
    · simp only [List.head?_cons, Option.some.injEq] at ht
      subst ht
      rw [components_slash]
      unfold components
      rw [h2, h1, ← List.map_append, ← List.filter_append]
      rfl

theorem components_dot : components ['.'] = [] := by decide +kernel

theorem components_name {n : List Char} (hs : '/' ∉ n) (h0 : n ≠ []) (h1 : n ≠ ['.']) :
    components n = [String.ofList n] := by
  unfold components
  rw [(splitSlash_entry n hs).1, List.filter_cons_of_pos (by simp [h0, h1])]
  rfl

theorem leads_components {d p : Path} {s : List Char} (h : Leads d s p) : p = d ++ components s := by
  induction h with
  | here => simp [components, splitSlash]
  | slash _ ih => rw [components_slash]; exact ih
  | @dot d t p ht _ ih =>
    have := components_entry (n := ['.']) (by decide) ht
    rw [List.singleton_append] at this
    rw [this, components_dot]
    exact ih
  | @entry d n t p h0 hs h1 ht _ ih =>
    rw [components_entry hs ht, components_name hs h0 h1, ← List.append_assoc]
    exact ih

/-- A text is an entry and what follows. -/
theorem entry_split : ∀ s : List Char, ∃ n t, s = n ++ t ∧ '/' ∉ n ∧ (t = [] ∨ t.head? = some '/')
  | [] => ⟨[], [], rfl, by simp, .inl rfl⟩
  | c :: cs => by
    by_cases hc : c = '/'
    · exact ⟨[], c :: cs, rfl, by simp, .inr (by simp [hc])⟩
    · obtain ⟨n, t, h1, h2, h3⟩ := entry_split cs
      exact ⟨c :: n, t, by rw [h1]; rfl, by simp [h2, Ne.symm hc], h3⟩

theorem leads_exists : ∀ (k : Nat) (d : Path) (s : List Char), s.length ≤ k → ∃ p, Leads d s p
  | _, d, [], _ => ⟨d, .here⟩
  | 0, _, _ :: _, h => by simp at h
  | k + 1, d, c :: cs, h => by
    by_cases hc : c = '/'
    · obtain ⟨p, hp⟩ := leads_exists k d cs (Nat.le_of_succ_le_succ h)
      exact ⟨p, hc ▸ .slash hp⟩
    · obtain ⟨n, t, h1, h2, h3⟩ := entry_split cs
      have hlen : t.length ≤ k := by
        have := Nat.le_of_succ_le_succ h
        rw [h1, List.length_append] at this
        omega
      have hn : '/' ∉ c :: n := by simp [h2, Ne.symm hc]
      by_cases hd : c :: n = ['.']
      · obtain ⟨p, hp⟩ := leads_exists k d t hlen
        injection hd with e1 e2
        subst e1; subst e2
        exact ⟨p, by rw [h1]; exact .dot h3 hp⟩
      · obtain ⟨p, hp⟩ := leads_exists k (d ++ [String.ofList (c :: n)]) t hlen
        exact ⟨p, by rw [h1]; exact .entry (n := c :: n) (by simp) hn hd h3 hp⟩

theorem leads_iff {d p : Path} {s : List Char} : Leads d s p ↔ p = d ++ components s := by
  refine ⟨leads_components, ?_⟩
  rintro rfl
  obtain ⟨p, hp⟩ := leads_exists s.length d s (Nat.le_refl _)
  exact leads_components hp ▸ hp

theorem names_iff {base p : Path} {s : List Char} : Names base s p ↔ p = join base s := by
  unfold Names
  rw [leads_iff, leads_iff]
  cases s with
  | nil => simp [join]
  | cons c cs =>
    by_cases hc : c = '/'
    · subst hc; simp [join]
    · simp only [List.head?_cons, Option.some.injEq, hc, false_and, ne_eq, not_false_eq_true, true_and,
        false_or]
      unfold join
      split
      · next e => injection e with e _; exact absurd e hc
      · rfl

theorem expands_iff {env : Env} (ho : env.word '{' = false) (hc : env.word '}' = false)
    (hd : env.word '$' = false) {s t : List Char} : Expands env s t ↔ t = expand env s := by
  constructor
  · rintro ⟨ps, h1, rfl, rfl⟩
    exact (expandLoop_reading ho hc hd ps _ h1 (Nat.lt_succ_self _)).symm
  · rintro rfl
    obtain ⟨ps, h1, rfl⟩ := exists_reading ho hc s.length s (Nat.le_refl _)
    exact ⟨ps, h1, rfl, (expandLoop_reading ho hc hd ps _ h1 (Nat.lt_succ_self _)).symm⟩

end Proj
end Podo
