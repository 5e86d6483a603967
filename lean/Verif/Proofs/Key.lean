import Verif.Proofs.Text
/-
Reading and writing the keys of definition files.
-/
set_option linter.unusedSimpArgs false
namespace Podo
namespace Def
open Text

theorem toLower_append (a b : List Char) : toLower (a ++ b) = toLower a ++ toLower b := by
  simp [toLower]

theorem toLower_cons (c : Char) (b : List Char) : toLower (c :: b) = lower c ++ toLower b := by
  simp [toLower]

theorem findKeyword_mem {low : List Char} {ks : List String} {k : String}
    (h : findKeyword low ks = some k) : k ∈ ks ∧ k.toList <+: low := by
  induction ks with
  | nil => cases h
  | cons a t ih =>
    unfold findKeyword at h
    split at h
    · next hp =>
      cases h
      exact ⟨List.mem_cons_self, List.isPrefixOf_iff_prefix.mp hp⟩
    · obtain ⟨h1, h2⟩ := ih h
      exact ⟨List.mem_cons_of_mem _ h1, h2⟩

theorem findKeyword_some {low : List Char} {ks : List String} {k : String} (hk : k ∈ ks)
    (hp : k.toList <+: low) : ∃ k', findKeyword low ks = some k' := by
  induction ks with
  | nil => cases hk
  | cons a t ih =>
    unfold findKeyword
    split
    · exact ⟨a, rfl⟩
    · next hn =>
      rcases List.mem_cons.mp hk with rfl | hk
      · exact absurd (List.isPrefixOf_iff_prefix.mpr hp) hn
      · exact ih hk

theorem keywords_toLower : ∀ k ∈ keywords, toLower k.toList = k.toList := by decide

theorem keywords_prefix : ∀ k ∈ keywords, ∀ k' ∈ keywords, k.toList.isPrefixOf k'.toList = true →
    k = k' ∨ (k = "on" ∧ (k' = "on delete" ∨ k' = "on update")) := by decide

theorem findKeyword_on {low : List Char} (h : findKeyword low keywords = some "on") :
    ¬ "on delete".toList <+: low ∧ ¬ "on update".toList <+: low := by
  have step : ∀ (k : String) (ks : List String), k ≠ "on" →
      findKeyword low (k :: ks) = some "on" → ¬ k.toList <+: low ∧ findKeyword low ks = some "on" := by
    intro k ks hk h
    unfold findKeyword at h
    split at h
    · cases h; exact absurd rfl hk
    · next hn => exact ⟨fun hp => hn (List.isPrefixOf_iff_prefix.mpr hp), h⟩
  have h1 := (step _ _ (by decide) h).2
  have h2 := (step _ _ (by decide) h1).2
  have h3 := (step _ _ (by decide) h2).2
  have h4 := step _ _ (by decide) h3
  have h5 := step _ _ (by decide) h4.2
  exact ⟨h4.1, h5.1⟩

theorem findKeyword_eq {low : List Char} {k : String} (hk : k ∈ keywords) (hp : k.toList <+: low)
    (hon : k = "on" → ¬ "on delete".toList <+: low ∧ ¬ "on update".toList <+: low) :
    findKeyword low keywords = some k := by
  obtain ⟨k', hk'⟩ := findKeyword_some hk hp
  obtain ⟨hm, hp'⟩ := findKeyword_mem hk'
  rw [hk']
  congr 1
  rcases List.prefix_or_prefix_of_prefix hp hp' with h | h
  · rcases keywords_prefix k hk k' hm (List.isPrefixOf_iff_prefix.mpr h) with e | ⟨e, e'⟩
    · exact e.symm
    · have := hon e
      rcases e' with e' | e'
      · subst e'; exact absurd hp' this.1
      · subst e'; exact absurd hp' this.2
  · rcases keywords_prefix k' hm k hk (List.isPrefixOf_iff_prefix.mpr h) with e | ⟨e, e'⟩
    · exact e
    · subst e
      have := findKeyword_on hk'
      rcases e' with e' | e'
      · subst e'; exact absurd hp this.1
      · subst e'; exact absurd hp this.2

theorem byteDrop_append (a b : List Char) : byteDrop (byteLen a) (a ++ b) = some b := by
  induction a with
  | nil => simp [byteLen, byteDrop]
  | cons c cs ih =>
    have hpos := Char.utf8Size_pos c
    have e : byteLen (c :: cs) = (c.utf8Size + byteLen cs - 1) + 1 := by
      unfold byteLen; simp; omega
    rw [e, List.cons_append, byteDrop, if_pos (by omega)]
    have e2 : c.utf8Size + byteLen cs - 1 + 1 - c.utf8Size = byteLen cs := by omega
    rw [e2, ih]

theorem toList_ne_nil {s : String} (h : s ≠ "") : s.toList ≠ [] := by
  intro e
  apply h
  rw [← String.ofList_toList (s := s), e]

theorem parseKey_ok {kind : String} {name : Option String} (h : KeyOk kind name) :
    parseKey (renderKey kind name) = .ok (kind, name) := by
  have hkw := keyWords_iff.1 h.keyword
  have hlow := keywords_toLower kind hkw
  cases name with
  | none =>
    have hf : findKeyword (toLower kind.toList) keywords = some kind := by
      apply findKeyword_eq hkw
      · rw [hlow]; exact List.prefix_refl _
      · intro e
        subst e
        constructor <;> (intro hp; revert hp; rw [← List.isPrefixOf_iff_prefix]; decide)
    have hb : byteDrop (byteLen kind.toList) kind.toList = some [] := by
      have := byteDrop_append kind.toList []
      rwa [List.append_nil] at this
    unfold parseKey renderKey
    simp only [hf, hb]
    rfl
  | some n =>
    obtain ⟨hne, htr, hon⟩ := h.name n rfl
    have hkey : (renderKey kind (some n)).toList = kind.toList ++ ' ' :: n.toList := by
      simp [renderKey]
    have hsp : lower ' ' = [' '] := by decide
    have hl : toLower (renderKey kind (some n)).toList = kind.toList ++ ' ' :: toLower n.toList := by
      rw [hkey, toLower_append, hlow, toLower_cons, hsp]; rfl
    have hf : findKeyword (toLower (renderKey kind (some n)).toList) keywords = some kind := by
      apply findKeyword_eq hkw
      · rw [hl]; exact List.prefix_append _ _
      · intro e
        rw [hl]
        subst e
        have h1 := hon rfl
        rw [startsWith_delete, startsWith_update] at h1
        have e1 : "on delete".toList = "on".toList ++ ' ' :: "delete".toList := by decide
        have e2 : "on update".toList = "on".toList ++ ' ' :: "update".toList := by decide
        rw [e1, e2, List.prefix_append_right_inj, List.prefix_append_right_inj, List.prefix_cons_inj,
          List.prefix_cons_inj]
        exact h1
    have hb : byteDrop (byteLen kind.toList) (renderKey kind (some n)).toList
        = some (' ' :: n.toList) := by
      rw [hkey]; exact byteDrop_append _ _
    unfold parseKey
    simp only [hf, hb]
    rw [trim_cons_ws ws_space, htr.trim]
    cases hn : n.toList with
    | nil => exact absurd hn (toList_ne_nil hne)
    | cons a r =>
      simp only []
      rw [← hn, String.ofList_toList]

/-- What every key that is read gives. -/
theorem parseKey_props {key kind : String} {name : Option String}
    (h : parseKey key = .ok (kind, name)) :
    findKeyword (toLower key.toList) keywords = some kind ∧
      ∀ n, name = some n → n ≠ "" ∧ Trimmed n := by
  unfold parseKey at h
  split at h
  · cases h
  · next k hk =>
    split at h
    · cases h
    · next rest hr =>
      split at h
      · cases h
        exact ⟨hk, fun n hn => by cases hn⟩
      · next t ht =>
        cases h
        refine ⟨hk, fun n hn => ?_⟩
        cases hn
        refine ⟨?_, trimmed_trim _⟩
        intro e
        have : (String.ofList (trim rest)).toList = [] := by rw [e]; rfl
        rw [String.toList_ofList] at this
        exact ht this

theorem parseKey_iff {kind : String} {name : Option String} :
    parseKey (renderKey kind name) = .ok (kind, name) ↔ KeyOk kind name := by
  constructor
  · intro h
    obtain ⟨hf, hn⟩ := parseKey_props h
    have hkw := (findKeyword_mem hf).1
    refine ⟨keyWords_iff.2 hkw, fun n e => ?_⟩
    obtain ⟨h1, h2⟩ := hn n e
    refine ⟨h1, h2, ?_⟩
    intro hon
    subst e
    subst hon
    have h3 := findKeyword_on hf
    have hkey : (renderKey "on" (some n)).toList = "on".toList ++ ' ' :: n.toList := by
      simp [renderKey]
    have hsp : lower ' ' = [' '] := by decide
    have hlow := keywords_toLower "on" hkw
    have e1 : "on delete".toList = "on".toList ++ ' ' :: "delete".toList := by decide
    have e2 : "on update".toList = "on".toList ++ ' ' :: "update".toList := by decide
    rw [hkey, toLower_append, hlow, toLower_cons, hsp, e1, e2, List.singleton_append,
      List.prefix_append_right_inj, List.prefix_append_right_inj, List.prefix_cons_inj,
      List.prefix_cons_inj] at h3
    rw [startsWith_delete, startsWith_update]
    exact h3
  · exact parseKey_ok

/-- A key that is read gives the kind of some keyword. -/
theorem parseKey_kind {key kind : String} {name : Option String}
    (h : parseKey key = .ok (kind, name)) : kind ∈ keywords :=
  (findKeyword_mem (parseKey_props h).1).1

/-- Keys that can be read back are different when kind or name are. -/
theorem renderKey_inj {k k' : String} {n n' : Option String} (h : KeyOk k n) (h' : KeyOk k' n')
    (e : renderKey k n = renderKey k' n') : k = k' ∧ n = n' := by
  have a := parseKey_ok h
  rw [e, parseKey_ok h'] at a
  cases a
  exact ⟨rfl, rfl⟩

/-! ### Panics -/

theorem lower_ne_nil (c : Char) : lower c ≠ [] := by
  unfold lower; split
  · simp
  · split
    · simp
    · split <;> simp

theorem ascii_size {x : Char} (h : x.toNat < 128) : x.utf8Size = 1 := by
  have : x.val ≤ 0x7f := by
    rw [UInt32.le_iff_toNat_le]
    show x.toNat ≤ 127
    omega
  unfold Char.utf8Size
  exact if_pos this

theorem lower_size {x c : Char} (hc : c.toNat < 128) (h : lower x = [c]) :
    x.utf8Size = 1 ∨ (x = kelvin ∧ c = 'k') := by
  unfold lower at h
  split at h
  · next hx =>
    left
    exact ascii_size (by omega)
  · split at h
    · next hx =>
      right
      cases h
      exact ⟨hx, rfl⟩
    · split at h
      · cases h
      · cases h
        exact .inl (ascii_size hc)

/-- A word a lower-case text starts with comes from as many characters of the text. -/
theorem toLower_prefix {k : List Char} (hk : ∀ c ∈ k, c.toNat < 128)
    (hl : k.getLast? ≠ some 'i') {cs : List Char} (h : k <+: toLower cs) :
    ∃ pre rest, cs = pre ++ rest ∧ pre.map lower = k.map (fun c => [c]) := by
  induction k generalizing cs with
  | nil => exact ⟨[], cs, rfl, rfl⟩
  | cons c k ih =>
    cases cs with
    | nil => obtain ⟨t, ht⟩ := h; simp [toLower] at ht
    | cons x xs =>
      rw [toLower_cons] at h
      by_cases hd : lower x = ['i', Char.ofNat 0x307]
      · exfalso
        rw [hd] at h
        have h1 : c = 'i' ∧ k <+: Char.ofNat 0x307 :: toLower xs := by
          simpa [List.cons_prefix_cons] using h
        cases k with
        | nil => exact hl (by rw [h1.1]; rfl)
        | cons c' k' =>
          have h2 : c' = Char.ofNat 0x307 := by
            have := h1.2
            rw [List.cons_prefix_cons] at this
            exact this.1
          have := hk c' (by simp)
          rw [h2] at this
          revert this; decide
      · have hsingle : ∃ y, lower x = [y] := by
          unfold lower at hd ⊢
          split
          · exact ⟨_, rfl⟩
          · split
            · exact ⟨_, rfl⟩
            · split
              · next h1 h2 h3 =>
                rw [if_neg h1, if_neg h2, if_pos h3] at hd
                exact absurd rfl hd
              · exact ⟨_, rfl⟩
        obtain ⟨y, hy⟩ := hsingle
        rw [hy, List.singleton_append, List.cons_prefix_cons] at h
        obtain ⟨e, h⟩ := h
        subst e
        have hl' : k.getLast? ≠ some 'i' := by
          intro e
          apply hl
          cases k with
          | nil => cases e
          | cons a t => rw [List.getLast?_cons_cons]; exact e
        obtain ⟨pre, rest, e1, e2⟩ := ih (fun c hc => hk c (List.mem_cons_of_mem _ hc)) hl' h
        exact ⟨x :: pre, rest, by rw [e1]; rfl, by simp [hy, e2]⟩

theorem byteDrop_small {pre : List Char} (h : ∀ x ∈ pre, x.utf8Size = 1) (n : Nat)
    (rest : List Char) : byteDrop (pre.length + n) (pre ++ rest) = byteDrop n rest := by
  induction pre with
  | nil => simp
  | cons x xs ih =>
    have e : (x :: xs).length + n = (xs.length + n) + 1 := by simp; omega
    have hx : x.utf8Size = 1 := h x (by simp)
    rw [e, List.cons_append, byteDrop, if_pos (by omega)]
    have e2 : xs.length + n + 1 - x.utf8Size = xs.length + n := by omega
    rw [e2]
    exact ih (fun y hy => h y (List.mem_cons_of_mem _ hy))

theorem map_lower_size {k pre : List Char} (hk : ∀ c ∈ k, c.toNat < 128) (hn : 'k' ∉ k)
    (h : pre.map lower = k.map (fun c => [c])) :
    (∀ x ∈ pre, x.utf8Size = 1) ∧ pre.length = k.length := by
  induction k generalizing pre with
  | nil =>
    simp at h
    subst h
    exact ⟨fun _ h => (by cases h), rfl⟩
  | cons c k ih =>
    cases pre with
    | nil => simp at h
    | cons x xs =>
      simp only [List.map_cons, List.cons.injEq] at h
      simp only [List.mem_cons, not_or] at hn
      obtain ⟨h1, h2⟩ := ih (fun c hc => hk c (List.mem_cons_of_mem _ hc)) hn.2 h.2
      refine ⟨?_, by simp [h2]⟩
      intro y hy
      rcases List.mem_cons.mp hy with rfl | hy
      · rcases lower_size (hk c (by simp)) h.1 with h | h
        · exact h
        · exact absurd h.2.symm hn.1
      · exact h1 y hy

theorem keywords_ascii : ∀ k ∈ keywords, ∀ c ∈ k.toList, c.toNat < 128 := by decide
theorem keywords_last : ∀ k ∈ keywords, k.toList.getLast? ≠ some 'i' := by decide
theorem keywords_len : ∀ k ∈ keywords, byteLen k.toList = k.toList.length := by decide
theorem keywords_k : ∀ k ∈ keywords, 'k' ∈ k.toList →
    k = "foreign key" ∨ k = "primary key" ∨ k = "check" := by decide

theorem kelvin_size : kelvin.utf8Size = 3 := by decide

/-- Splitting an aligned text at a given place of the word. -/
theorem map_lower_split {a b pre : List Char} {c : Char}
    (h : pre.map lower = (a ++ c :: b).map (fun c => [c])) :
    ∃ p x q, pre = p ++ x :: q ∧ p.map lower = a.map (fun c => [c]) ∧ lower x = [c] ∧
      q.map lower = b.map (fun c => [c]) := by
  rw [List.map_append, List.map_cons] at h
  obtain ⟨p, r, rfl, hp, hr⟩ := List.map_eq_append_iff.mp h
  obtain ⟨x, q, rfl, hx, hq⟩ := List.map_eq_cons_iff.mp hr
  exact ⟨p, x, q, rfl, hp, hx, hq⟩

theorem byteDrop_key {p q rest : List Char} {x : Char}
    (hp : ∀ x ∈ p, x.utf8Size = 1) (hpl : p.length = 8) (hq : ∀ x ∈ q, x.utf8Size = 1)
    (hql : q.length = 2) (hx : x.utf8Size = 1 ∨ x = kelvin) :
    byteDrop 11 (p ++ x :: q ++ rest) ≠ none := by
  have e : byteDrop 11 (p ++ x :: q ++ rest) = byteDrop 3 (x :: q ++ rest) := by
    have := byteDrop_small hp 3 (x :: q ++ rest)
    rw [hpl] at this
    rw [List.append_assoc]
    exact this
  rw [e]
  rcases hx with hx | hx
  · rw [List.cons_append, byteDrop, if_pos (by omega), hx]
    have := byteDrop_small hq 0 rest
    rw [hql] at this
    show byteDrop (2 + 0) (q ++ rest) ≠ none
    rw [this]
    simp [byteDrop]
  · rw [hx, List.cons_append, byteDrop, kelvin_size, if_pos (by omega)]
    simp [byteDrop]

theorem byteDrop_check {p rest : List Char} {x : Char}
    (hp : ∀ x ∈ p, x.utf8Size = 1) (hpl : p.length = 4) (hx : x.utf8Size = 1 ∨ x = kelvin) :
    byteDrop 5 (p ++ x :: rest) = none ↔ x = kelvin := by
  have e : byteDrop 5 (p ++ x :: rest) = byteDrop 1 (x :: rest) := by
    have := byteDrop_small hp 1 (x :: rest)
    rwa [hpl] at this
  rw [e]
  constructor
  · intro h
    rcases hx with hx | hx
    · rw [byteDrop, if_pos (by omega), hx] at h
      simp [byteDrop] at h
    · exact hx
  · intro h
    rw [h, byteDrop, kelvin_size, if_neg (by omega)]

theorem lower_eq_letter {x : Char} : (lower x = ['c'] ↔ x = 'c' ∨ x = 'C') ∧
    (lower x = ['h'] ↔ x = 'h' ∨ x = 'H') ∧ (lower x = ['e'] ↔ x = 'e' ∨ x = 'E') := by
  have gen : ∀ l u : Char, l.toNat = u.toNat + 32 → 65 ≤ u.toNat → u.toNat ≤ 90 → l ≠ 'k' →
      (lower x = [l] ↔ x = l ∨ x = u) := by
    intro l u hlu h1 h2 hk
    constructor
    · intro h
      unfold lower at h
      split at h
      · next hx =>
        right
        have h3 : Char.ofNat (x.toNat + 32) = l := by simpa using h
        have h4 : (Char.ofNat (x.toNat + 32)).toNat = x.toNat + 32 := by
          have hv : (x.toNat + 32).isValidChar := .inl (by omega)
          unfold Char.ofNat
          rw [dif_pos hv]
          rfl
        rw [h3] at h4
        apply Char.ext
        apply UInt32.toNat_inj.mp
        show x.toNat = u.toNat
        omega
      · split at h
        · exact absurd (by simpa using h) (Ne.symm hk)
        · split at h
          · cases h
          · left; simpa using h
    · rintro (rfl | rfl)
      · unfold lower
        rw [if_neg (by omega), if_neg, if_neg]
        · intro e
          rw [e] at hlu
          have : dottedI.toNat = 304 := by decide
          omega
        · intro e
          rw [e] at hlu
          have : kelvin.toNat = 8490 := by decide
          omega
      · unfold lower
        rw [if_pos ⟨h1, h2⟩]
        congr 1
        rw [← hlu, Char.ofNat_toNat]
  exact ⟨gen _ _ (by decide) (by decide) (by decide) (by decide),
    gen _ _ (by decide) (by decide) (by decide) (by decide),
    gen _ _ (by decide) (by decide) (by decide) (by decide)⟩

/-- The keys the parser panics on. -/
theorem parseKey_panic_iff {key : String} :
    parseKey key = .error .panic ↔
      ∃ a b c d rest, key.toList = a :: b :: c :: d :: kelvin :: rest ∧
        (a = 'c' ∨ a = 'C') ∧ (b = 'h' ∨ b = 'H') ∧ (c = 'e' ∨ c = 'E') ∧ (d = 'c' ∨ d = 'C') := by
  constructor
  · intro h
    unfold parseKey at h
    split at h
    · cases h
    · next k hk =>
      obtain ⟨hm, hp⟩ := findKeyword_mem hk
      obtain ⟨pre, rest, e, hal⟩ := toLower_prefix (keywords_ascii k hm) (keywords_last k hm) hp
      split at h
      · next hb =>
        rw [keywords_len k hm, e] at hb
        by_cases hkk : 'k' ∈ k.toList
        · rcases keywords_k k hm hkk with rfl | rfl | rfl
          · exfalso
            obtain ⟨p, x, q, rfl, h1, h2, h3⟩ :=
              map_lower_split (a := "foreign ".toList) (b := "ey".toList) (c := 'k') hal
            obtain ⟨s1, l1⟩ := map_lower_size (by decide) (by decide) h1
            obtain ⟨s3, l3⟩ := map_lower_size (by decide) (by decide) h3
            exact byteDrop_key s1 l1 s3 l3
              ((lower_size (by decide) h2).imp id And.left) hb
          · exfalso
            obtain ⟨p, x, q, rfl, h1, h2, h3⟩ :=
              map_lower_split (a := "primary ".toList) (b := "ey".toList) (c := 'k') hal
            obtain ⟨s1, l1⟩ := map_lower_size (by decide) (by decide) h1
            obtain ⟨s3, l3⟩ := map_lower_size (by decide) (by decide) h3
            exact byteDrop_key s1 l1 s3 l3
              ((lower_size (by decide) h2).imp id And.left) hb
          · obtain ⟨p, x, q, rfl, h1, h2, h3⟩ :=
              map_lower_split (a := "chec".toList) (b := []) (c := 'k') hal
            obtain ⟨s1, l1⟩ := map_lower_size (by decide) (by decide) h1
            have hq : q = [] := by simpa using h3
            subst hq
            have hx := (byteDrop_check (rest := rest) s1 l1
              ((lower_size (by decide) h2).imp id And.left)).mp
              (by
                have e5 : "check".toList.length = 5 := by decide
                rw [e5, List.append_assoc] at hb
                exact hb)
            have e4 : "chec".toList = ['c', 'h', 'e', 'c'] := by decide
            rw [e4] at h1
            match p, h1 with
            | [a, b, c, d], h1 =>
              simp only [List.map_cons, List.map_nil, List.cons.injEq, and_true] at h1
              refine ⟨a, b, c, d, rest, ?_, lower_eq_letter.1.mp h1.1,
                lower_eq_letter.2.1.mp h1.2.1, lower_eq_letter.2.2.mp h1.2.2.1,
                lower_eq_letter.1.mp h1.2.2.2⟩
              rw [e, hx]; rfl
        · exfalso
          obtain ⟨s, l⟩ := map_lower_size (keywords_ascii k hm) hkk hal
          have := byteDrop_small s 0 rest
          rw [l, Nat.add_zero] at this
          rw [this] at hb
          simp [byteDrop] at hb
      · split at h <;> cases h
  · rintro ⟨a, b, c, d, rest, e, ha, hb, hc, hd⟩
    have hal : [a, b, c, d].map lower = "chec".toList.map (fun c => [c]) := by
      have e4 : "chec".toList = ['c', 'h', 'e', 'c'] := by decide
      rw [e4]
      simp only [List.map_cons, List.map_nil]
      rw [lower_eq_letter.1.mpr ha, lower_eq_letter.2.1.mpr hb, lower_eq_letter.2.2.mpr hc,
        lower_eq_letter.1.mpr hd]
    obtain ⟨s1, l1⟩ := map_lower_size (by decide) (by decide) hal
    have hlow : toLower key.toList = "check".toList ++ toLower rest := by
      have hk : lower kelvin = ['k'] := by decide
      have e5 : "check".toList = ['c', 'h', 'e', 'c', 'k'] := by decide
      rw [e, e5, toLower_cons, toLower_cons, toLower_cons, toLower_cons, toLower_cons, hk,
        lower_eq_letter.1.mpr ha, lower_eq_letter.2.1.mpr hb, lower_eq_letter.2.2.mpr hc,
        lower_eq_letter.1.mpr hd]
      rfl
    have hf : findKeyword (toLower key.toList) keywords = some "check" := by
      apply findKeyword_eq (by decide)
      · rw [hlow]; exact List.prefix_append _ _
      · intro h; exact absurd h (by decide)
    have hdrop : byteDrop (byteLen "check".toList) key.toList = none := by
      rw [keywords_len _ (by decide), e]
      exact (byteDrop_check (p := [a, b, c, d]) s1 rfl (.inr rfl)).mpr rfl
    unfold parseKey
    simp only [hf, hdrop]

end Def
end Podo
