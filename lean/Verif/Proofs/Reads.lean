import Verif.Proofs.Tree
import Verif.Spec.Reads
/-
How the YAML of a definition file is read is how `Spec/Reads` says.
-/
namespace Podo
namespace Def
open Text

/-- Small letters and blanks. -/
def Small (ls : List Char) : Prop := ∀ l ∈ ls, l.toNat < 128 ∧ ¬ (65 ≤ l.toNat ∧ l.toNat ≤ 90)

theorem keywords_small : ∀ k ∈ keywords, Small k.toList := by unfold Small; decide

theorem kelvin_eq : '\u212a' = kelvin := by decide

theorem lower_of_sameLetter {c l : Char} (hl : l.toNat < 128 ∧ ¬ (65 ≤ l.toNat ∧ l.toNat ≤ 90))
    (h : SameLetter c l) : lower c = [l] := by
  have hA : 'A'.toNat = 65 := rfl
  have hZ : 'Z'.toNat = 90 := rfl
  unfold SameLetter at h
  rw [hA, hZ] at h
  unfold lower
  rcases h with rfl | ⟨h1, h2, h3⟩
  · rw [if_neg hl.2, if_neg, if_neg]
    · intro e; rw [e] at hl; revert hl; decide
    · intro e; rw [e] at hl; revert hl; decide
  · rw [if_pos ⟨h1, h2⟩, h3, Char.ofNat_toNat]

theorem sameLetter_of_lower {c l : Char} (hk : c = kelvin → False) (h : lower c = [l]) : SameLetter c l := by
  have hA : 'A'.toNat = 65 := rfl
  have hZ : 'Z'.toNat = 90 := rfl
  unfold SameLetter
  rw [hA, hZ]
  unfold lower at h
  split at h
  · next hx =>
    injection h with h _
    refine Or.inr ⟨hx.1, hx.2, ?_⟩
    rw [← h]
    have hv : (c.toNat + 32).isValidChar := Or.inl (by omega)
    unfold Char.ofNat
    rw [dif_pos hv]; rfl
  · split at h
    · cases h
    · injection h with h _; exact Or.inl h

theorem sameLetters_map : ∀ {cs ls : List Char}, Small ls → SameLetters cs ls →
    cs.map lower = ls.map (fun c => [c])
  | [], [], _, _ => rfl
  | [], _ :: _, _, h => h.elim
  | _ :: _, [], _, h => h.elim
  | c :: cs, l :: ls, hs, h => by
    rw [List.map_cons, List.map_cons, lower_of_sameLetter (hs l (by simp)) h.1,
      sameLetters_map (fun m hm => hs m (List.mem_cons_of_mem _ hm)) h.2]

theorem map_sameLetters : ∀ {cs ls : List Char}, kelvin ∉ cs → cs.map lower = ls.map (fun c => [c]) →
    SameLetters cs ls
  | [], [], _, _ => trivial
  | [], _ :: _, _, h => by simp at h
  | _ :: _, [], _, h => by simp at h
  | c :: cs, l :: ls, hk, h => by
    simp only [List.map_cons, List.cons.injEq] at h
    exact ⟨sameLetter_of_lower (fun e => hk (by rw [e]; simp)) h.1,
      map_sameLetters (fun e => hk (List.mem_cons_of_mem _ e)) h.2⟩

theorem toLower_of_map : ∀ {cs ls : List Char}, cs.map lower = ls.map (fun c => [c]) → toLower cs = ls
  | [], [], _ => rfl
  | [], _ :: _, h => by simp at h
  | _ :: _, [], h => by simp at h
  | c :: cs, l :: ls, h => by
    simp only [List.map_cons, List.cons.injEq] at h
    rw [toLower_cons, h.1, toLower_of_map h.2]; rfl

theorem not_kelvin_of_size {cs : List Char} (h : ∀ x ∈ cs, x.utf8Size = 1) : kelvin ∉ cs := by
  intro e
  have := h _ e
  rw [kelvin_size] at this
  cases this

theorem size_of_sameLetters : ∀ {cs ls : List Char}, Small ls → SameLetters cs ls → ∀ x ∈ cs, x.utf8Size = 1
  | [], [], _, _, x, hx => by cases hx
  | [], _ :: _, _, h, _, _ => h.elim
  | _ :: _, [], _, h, _, _ => h.elim
  | c :: cs, l :: ls, hs, h, x, hx => by
    rcases List.mem_cons.1 hx with rfl | hx
    · have hl := hs l (by simp)
      have hA : 'A'.toNat = 65 := rfl
      have hZ : 'Z'.toNat = 90 := rfl
      rcases h.1 with rfl | ⟨_, h2, _⟩
      · exact ascii_size hl.1
      · rw [hZ] at h2; exact ascii_size (by omega)
    · exact size_of_sameLetters (fun m hm => hs m (List.mem_cons_of_mem _ hm)) h.2 x hx

/-! ### Blanks -/

theorem takeWhile_all {p : Char → Bool} {cs : List Char} : ∀ c ∈ cs.takeWhile p, p c = true := by
  induction cs with
  | nil => intro c hc; cases hc
  | cons x xs ih =>
    intro c hc
    rw [List.takeWhile_cons] at hc
    split at hc
    · next hx =>
      rcases List.mem_cons.1 hc with rfl | hc
      · exact hx
      · exact ih c hc
    · cases hc

theorem around_trim (cs : List Char) : Around cs (trim cs) := by
  refine ⟨cs.takeWhile isWs, (((cs.dropWhile isWs).reverse.takeWhile isWs)).reverse, ?_, ?_, ?_, ?_, ?_⟩
  · unfold trim
    rw [List.append_assoc, ← List.reverse_append, List.takeWhile_append_dropWhile, List.reverse_reverse,
      List.takeWhile_append_dropWhile]
  · exact fun c hc => (isWs_iff c).1 (takeWhile_all c hc)
  · exact fun c hc => (isWs_iff c).1 (takeWhile_all c (List.mem_reverse.1 hc))
  · intro c hc hb
    have := trim_head hc
    rw [(isWs_iff c).2 hb] at this
    cases this
  · intro c hc hb
    have := trim_last hc
    rw [(isWs_iff c).2 hb] at this
    cases this

theorem dropWhile_all {p : Char → Bool} {cs : List Char} (h : ∀ c ∈ cs, p c = true) : cs.dropWhile p = [] := by
  induction cs with
  | nil => rfl
  | cons x xs ih =>
    rw [List.dropWhile_cons, if_pos (h x (by simp))]
    exact ih fun c hc => h c (List.mem_cons_of_mem _ hc)

theorem dropWhile_blank {a b : List Char} (h : ∀ c ∈ a, Blank c) :
    (a ++ b).dropWhile isWs = b.dropWhile isWs := by
  rw [List.dropWhile_append, dropWhile_all fun c hc => (isWs_iff c).2 (h c hc)]
  rfl

theorem trim_of_blank {cs : List Char} (h : ∀ c ∈ cs, Blank c) : trim cs = [] := by
  unfold trim
  rw [dropWhile_all fun c hc => (isWs_iff c).2 (h c hc)]; rfl

theorem trim_of_around {outer inner : List Char} (h : Around outer inner) : trim outer = inner := by
  obtain ⟨a, b, rfl, ha, hb, h1, h2⟩ := h
  cases inner with
  | nil =>
    apply trim_of_blank
    intro c hc
    rw [List.append_nil] at hc
    rcases List.mem_append.1 hc with hc | hc
    · exact ha c hc
    · exact hb c hc
  | cons x xs =>
    have hx : isWs x = false := (isWs_false_iff x).2 (h1 x rfl)
    have hx' : ¬ isWs x = true := by rw [hx]; simp
    have hself := trim_self (cs := x :: xs) (fun c hc => (isWs_false_iff c).2 (h1 c hc))
      (fun c hc => (isWs_false_iff c).2 (h2 c hc))
    unfold trim at hself ⊢
    rw [List.append_assoc, dropWhile_blank ha]
    rw [List.dropWhile_cons, if_neg hx'] at hself
    rw [List.cons_append, List.dropWhile_cons, if_neg hx', ← List.cons_append, List.reverse_append,
      dropWhile_blank fun c hc => hb c (List.mem_reverse.1 hc)]
    exact hself

/-- What a key's rest is read as. -/
theorem nameIs_iff {rest : List Char} {name : Option String} : NameIs rest name ↔
    (match trim rest with | [] => none | n => some (String.ofList n)) = name := by
  constructor
  · intro h
    cases name with
    | none => rw [trim_of_blank h]
    | some n =>
      rw [trim_of_around h.2]
      have := toList_ne_nil h.1
      split
      · next e => exact (this e).elim
      · rw [String.ofList_toList]
  · intro h
    split at h
    · next e =>
      subst h
      exact fun c hc => (isWs_iff c).1 (trim_eq_nil e c hc)
    · next hne =>
      subst h
      refine ⟨?_, ?_⟩
      · intro e
        have := congrArg String.toList e
        rw [String.toList_ofList] at this
        exact hne this
      · rw [String.toList_ofList]; exact around_trim rest

theorem parseKey_eq {key kind : String} {name : Option String} {rest : List Char}
    (hf : findKeyword (toLower key.toList) keywords = some kind)
    (hb : byteDrop (byteLen kind.toList) key.toList = some rest) :
    parseKey key = .ok (kind, name) ↔ NameIs rest name := by
  unfold parseKey
  simp only [hf, hb]
  rw [nameIs_iff]
  cases htr : trim rest with
  | nil => simp
  | cons a r => simp

theorem startsWith_prefix {w key : String} (hw : w ∈ keywords) (h : StartsWith w key) :
    w.toList <+: toLower key.toList := by
  obtain ⟨f, r, e, h⟩ := h
  rw [e, toLower_append, toLower_of_map (sameLetters_map (keywords_small w hw) h)]
  exact List.prefix_append _ _

theorem on_lengths : "on".length < "on delete".length ∧ "on".length < "on update".length := by decide

theorem lower_kelvin : lower kelvin = ['k'] := by decide

theorem kelvin_word {pre k : List Char} (h : pre.map lower = k.map (fun c => [c])) (hm : kelvin ∈ pre) :
    'k' ∈ k := by
  have : lower kelvin ∈ pre.map lower := List.mem_map_of_mem hm
  rw [h, lower_kelvin] at this
  obtain ⟨c, hc, e⟩ := List.mem_map.1 this
  injection e with e _
  rwa [e] at hc

theorem keySays_of_parse {key kind : String} {name : Option String}
    (h : parseKey key = .ok (kind, name)) : KeySays key kind name := by
  have hf := (parseKey_props h).1
  obtain ⟨hm, hp⟩ := findKeyword_mem hf
  obtain ⟨pre, rest, e, hal⟩ := toLower_prefix (keywords_ascii kind hm) (keywords_last kind hm) hp
  by_cases hk : kelvin ∈ pre
  · have two : ∀ (front : String), kind.toList = front.toList ++ 'k' :: "ey".toList →
        (∀ c ∈ front.toList, c.toNat < 128) → 'k' ∉ front.toList → front.toList.length = 8 →
        byteLen kind.toList = 11 →
        ∃ f e y, SameLetters f front.toList ∧ key.toList = f ++ 'K' :: e :: y :: rest ∧
          SameLetter e 'e' ∧ SameLetter y 'y' ∧ NameIs (e :: y :: rest) name := by
      intro front hkind ha hnk hlen hbl
      rw [hkind] at hal
      obtain ⟨p, x, q, rfl, h1, h2, h3⟩ := map_lower_split hal
      obtain ⟨s1, l1⟩ := map_lower_size ha hnk h1
      obtain ⟨s3, l3⟩ := map_lower_size (by decide) (by decide) h3
      have hx : x = kelvin := by
        rcases List.mem_append.1 hk with hk | hk
        · exact (not_kelvin_of_size s1 hk).elim
        · rcases List.mem_cons.1 hk with hk | hk
          · exact hk.symm
          · exact (not_kelvin_of_size s3 hk).elim
      have hs1 := map_sameLetters (not_kelvin_of_size s1) h1
      have hs3 := map_sameLetters (not_kelvin_of_size s3) h3
      have hey : "ey".toList = ['e', 'y'] := by decide
      rw [hey] at hs3
      match q, hs3 with
      | [a, b], hs3 =>
        refine ⟨p, a, b, hs1, by rw [e, hx, kelvin_eq]; simp, hs3.1, hs3.2.1, ?_⟩
        refine (parseKey_eq hf ?_).1 h
        rw [hbl, e, hx, List.append_assoc]
        have hb := byteDrop_small s1 3 (kelvin :: [a, b] ++ rest)
        rw [l1, hlen] at hb
        rw [hb, List.cons_append, byteDrop, kelvin_size, if_pos (by omega)]
        rfl
    rcases keywords_k kind hm (kelvin_word hal hk) with rfl | rfl | rfl
    · obtain ⟨f, e, y, h1, h2, h3, h4, h5⟩ := two "foreign " (by decide) (by decide) (by decide) (by decide)
        (by decide)
      exact .kelvin f e y rest h2 (.inl ⟨rfl, h1⟩) h3 h4 h5
    · obtain ⟨f, e, y, h1, h2, h3, h4, h5⟩ := two "primary " (by decide) (by decide) (by decide) (by decide)
        (by decide)
      exact .kelvin f e y rest h2 (.inr ⟨rfl, h1⟩) h3 h4 h5
    · exfalso
      obtain ⟨p, x, q, rfl, h1, h2, h3⟩ :=
        map_lower_split (a := "chec".toList) (b := []) (c := 'k') hal
      obtain ⟨s1, l1⟩ := map_lower_size (by decide) (by decide) h1
      have hq : q = [] := by simpa using h3
      subst hq
      have hx : x = kelvin := by
        rcases List.mem_append.1 hk with hk | hk
        · exact (not_kelvin_of_size s1 hk).elim
        · exact (List.mem_singleton.1 hk).symm
      have hn := (byteDrop_check (rest := rest) s1 l1 (.inr hx)).2 hx
      have : byteDrop (byteLen "check".toList) key.toList = none := by
        rw [e, List.append_assoc]; exact hn
      unfold parseKey at h
      simp only [hf, this] at h
      cases h
  · have hs := map_sameLetters hk hal
    refine .word pre rest e (keyWords_iff.2 hm) hs ?_ ?_
    · intro w hw hsw
      have hw := keyWords_iff.1 hw
      have hwp := startsWith_prefix hw hsw
      rcases List.prefix_or_prefix_of_prefix hp hwp with hh | hh
      · rcases keywords_prefix kind hm w hw (List.isPrefixOf_iff_prefix.2 hh) with rfl | ⟨rfl, hw'⟩
        · exact Nat.le_refl _
        · have := findKeyword_on hf
          rcases hw' with rfl | rfl
          · exact (this.1 hwp).elim
          · exact (this.2 hwp).elim
      · rcases keywords_prefix w hw kind hm (List.isPrefixOf_iff_prefix.2 hh) with rfl | ⟨rfl, hw'⟩
        · exact Nat.le_refl _
        · rcases hw' with rfl | rfl
          · exact Nat.le_of_lt on_lengths.1
          · exact Nat.le_of_lt on_lengths.2
    · refine (parseKey_eq hf ?_).1 h
      have hb := byteDrop_small (size_of_sameLetters (keywords_small kind hm) hs) 0 rest
      rw [e, keywords_len kind hm, ← sameLetters_length hs]
      rw [Nat.add_zero] at hb
      rw [hb]; cases rest <;> rfl

theorem not_startsWith_of {key w : String} (hw : w = "on delete" ∨ w = "on update")
    (h : ¬ StartsWith w key) : ¬ w.toList <+: toLower key.toList := by
  intro hp
  apply h
  have hm : w ∈ keywords := by rcases hw with rfl | rfl <;> decide
  obtain ⟨pre, rest, e, hal⟩ := toLower_prefix (keywords_ascii w hm) (keywords_last w hm) hp
  have hk : 'k' ∉ w.toList := by rcases hw with rfl | rfl <;> decide
  obtain ⟨s, _⟩ := map_lower_size (keywords_ascii w hm) hk hal
  exact ⟨pre, rest, e, map_sameLetters (not_kelvin_of_size s) hal⟩

theorem parse_of_keySays {key kind : String} {name : Option String} (h : KeySays key kind name) :
    parseKey key = .ok (kind, name) := by
  cases h with
  | word front rest e hm hs hmax hn =>
    have hm' := keyWords_iff.1 hm
    have hp : kind.toList <+: toLower key.toList := startsWith_prefix hm' ⟨front, rest, e, hs⟩
    have hf : findKeyword (toLower key.toList) keywords = some kind := by
      refine findKeyword_eq hm' hp ?_
      rintro rfl
      refine ⟨not_startsWith_of (.inl rfl) fun hh => ?_, not_startsWith_of (.inr rfl) fun hh => ?_⟩
      · exact Nat.not_le.2 on_lengths.1 (hmax _ (by decide) hh)
      · exact Nat.not_le.2 on_lengths.2 (hmax _ (by decide) hh)
    refine (parseKey_eq hf ?_).2 hn
    have hb := byteDrop_small (size_of_sameLetters (keywords_small kind hm') hs) 0 rest
    rw [e, keywords_len kind hm', ← sameLetters_length hs]
    rw [Nat.add_zero] at hb
    rw [hb]; cases rest <;> rfl
  | kelvin front a b rest e hk ha hb hn =>
    have two : ∀ w : String, Small w.toList → w.toList.length = 8 → SameLetters front w.toList →
        kind.toList = w.toList ++ ['k', 'e', 'y'] → kind ∈ keywords → kind ≠ "on" →
        byteLen kind.toList = 11 → parseKey key = .ok (kind, name) := by
      intro w hw hl hs hkind hm hon hbl
      have hf : findKeyword (toLower key.toList) keywords = some kind := by
        refine findKeyword_eq hm ?_ fun h => (hon h).elim
        rw [hkind, e, toLower_append, toLower_of_map (sameLetters_map hw hs), toLower_cons, toLower_cons,
          toLower_cons, kelvin_eq, lower_kelvin, lower_of_sameLetter (by decide) ha,
          lower_of_sameLetter (by decide) hb]
        rw [List.prefix_append_right_inj]
        exact ⟨toLower rest, rfl⟩
      refine (parseKey_eq hf ?_).2 hn
      have hb := byteDrop_small (size_of_sameLetters hw hs) 3 (kelvin :: a :: b :: rest)
      rw [sameLetters_length hs, hl] at hb
      rw [hbl, e, kelvin_eq, hb, byteDrop, kelvin_size, if_pos (by omega)]
      rfl
    rcases hk with ⟨rfl, hs⟩ | ⟨rfl, hs⟩
    · exact two "foreign " (by unfold Small; decide) (by decide) hs (by decide) (by decide) (by decide) (by decide)
    · exact two "primary " (by unfold Small; decide) (by decide) hs (by decide) (by decide) (by decide) (by decide)

theorem parseKey_says {key kind : String} {name : Option String} :
    parseKey key = .ok (kind, name) ↔ KeySays key kind name :=
  ⟨keySays_of_parse, parse_of_keySays⟩

/-! ### Values and nodes -/

theorem parseNum_range {n m : Num} : parseNum n = .ok m ↔
    n = m ∧ ∀ i, n = .integer i → least ≤ i ∧ i ≤ greatest := by
  rw [least_eq, greatest_eq]
  cases n with
  | float b => simp [parseNum]
  | integer i =>
    rw [parseNum]
    split
    · next h => simp [h]
    · next h =>
      simp only [reduceCtorEq, false_iff, not_and]
      intro _ hh
      exact h (hh i rfl)

mutual
theorem parseValue_says : ∀ {y : Yaml} {v : Value}, parseValue y = .ok v → Says y v
  | .str s, v, h => by rw [parseValue] at h; cases h; exact .text s
  | .bool b, v, h => by rw [parseValue] at h; cases h; exact .flag b
  | .num n, v, h => by
    rw [parseValue] at h
    split at h
    · cases h
    · next m hm =>
      cases h
      obtain ⟨rfl, hr⟩ := parseNum_range.1 hm
      cases n with
      | float b => exact .float b
      | integer i => exact .integer i (hr i rfl).1 (hr i rfl).2
  | .map _ _, v, h => by rw [parseValue] at h; cases h
  | .seq vs, v, h => by
    rw [parseValue] at h
    split at h
    · cases h
    · next l hl => cases h; exact .list (parseValues_says hl)
  | .null, v, h => by rw [parseValue] at h; cases h
  | .tagged, v, h => by rw [parseValue] at h; cases h
theorem parseValues_says : ∀ {ys : List Yaml} {vs : List Value}, parseValues ys = .ok vs → SaysAll ys vs
  | [], vs, h => by rw [parseValues] at h; cases h; exact .nil
  | y :: ys, vs, h => by
    rw [parseValues] at h
    split at h
    · cases h
    · next x hx =>
      split at h
      · cases h
      · next xs hxs => cases h; exact .cons (parseValue_says hx) (parseValues_says hxs)
end

mutual
theorem says_parseValue : ∀ {y : Yaml} {v : Value}, Says y v → parseValue y = .ok v
  | _, _, .text s => by rw [parseValue]
  | _, _, .flag b => by rw [parseValue]
  | _, _, .integer i h1 h2 => by
    rw [parseValue, parseNum_range.2 ⟨rfl, fun j e => by cases e; exact ⟨h1, h2⟩⟩]
  | _, _, .float b => by rw [parseValue, parseNum]
  | _, _, .list h => by rw [parseValue, saysAll_parseValues h]
theorem saysAll_parseValues : ∀ {ys : List Yaml} {vs : List Value}, SaysAll ys vs → parseValues ys = .ok vs
  | _, _, .nil => by rw [parseValues]
  | _, _, .cons h1 h2 => by rw [parseValues, says_parseValue h1, saysAll_parseValues h2]
end

/-- What is not a mapping and not nothing under a key is read as a value. -/
theorem parseEntry_other {kind : String} {name : Option String} {y : Yaml}
    (h1 : ∀ ks vs, y ≠ .map ks vs) (h2 : y ≠ .null) : parseEntry kind name y =
      match parseValue y with
      | .error e => .error e
      | .ok v => .ok (.leaf kind name (some v)) := by
  cases y with
  | map ks vs => exact (h1 ks vs rfl).elim
  | null => exact (h2 rfl).elim
  | str s => rw [parseEntry, parseValue]
  | bool s => rw [parseEntry, parseValue]
  | tagged => rw [parseEntry, parseValue]
  | num n => rw [parseEntry, parseValue]; cases parseNum n <;> rfl
  | seq vs => rw [parseEntry, parseValue]; cases parseValues vs <;> rfl

mutual
theorem parseEntry_says : ∀ {kind : String} {name : Option String} {y : Yaml} {n : Node},
    parseEntry kind name y = .ok n → NodeSays kind name y n
  | kind, name, .map ks vs, n, h => by
    rw [parseEntry] at h
    split at h
    · cases h
    · next ns hns => cases h; exact .inside (parseMapping_says hns)
  | kind, name, .null, n, h => by rw [parseEntry] at h; cases h; exact .nothing
  | kind, name, .str s, n, h => by rw [parseEntry] at h; cases h; exact .value (.text s)
  | kind, name, .bool s, n, h => by rw [parseEntry] at h; cases h; exact .value (.flag s)
  | kind, name, .tagged, n, h => by rw [parseEntry] at h; cases h
  | kind, name, .num m, n, h => by
    rw [parseEntry_other (by simp) (by simp)] at h
    split at h
    · cases h
    · next hv => cases h; exact .value (parseValue_says hv)
  | kind, name, .seq vs, n, h => by
    rw [parseEntry_other (by simp) (by simp)] at h
    split at h
    · cases h
    · next hv => cases h; exact .value (parseValue_says hv)
theorem parseMapping_says : ∀ {ks : List (Option String)} {vs : List Yaml} {ns : List Node},
    parseMapping ks vs = .ok ns → MappingSays ks vs ns
  | [], _, ns, h => by rw [parseMapping] at h; cases h; exact .done (.inl rfl)
  | _ :: _, [], ns, h => by rw [parseMapping] at h; cases h; exact .done (.inr rfl)
  | none :: ks, v :: vs, ns, h => by rw [parseMapping] at h; cases h
  | some key :: ks, v :: vs, ns, h => by
    rw [parseMapping] at h
    split at h
    · cases h
    · next kind name hk =>
      split at h
      · cases h
      · next n hn =>
        split at h
        · cases h
        · next ns' hns =>
          cases h
          exact .cons (parseKey_says.1 hk) (parseEntry_says hn) (parseMapping_says hns)
end

mutual
theorem nodeSays_parse : ∀ {kind : String} {name : Option String} {y : Yaml} {n : Node},
    NodeSays kind name y n → parseEntry kind name y = .ok n
  | _, _, _, _, .inside h => by rw [parseEntry, mappingSays_parse h]
  | _, _, _, _, .nothing => by rw [parseEntry]
  | _, _, _, _, .value h => by
    rw [parseEntry_other, says_parseValue h]
    · rintro ks vs rfl; cases h
    · rintro rfl; cases h
theorem mappingSays_parse : ∀ {ks : List (Option String)} {vs : List Yaml} {ns : List Node},
    MappingSays ks vs ns → parseMapping ks vs = .ok ns
  | [], _, _, .done _ => by rw [parseMapping]
  | _ :: _, [], _, .done _ => by rw [parseMapping]
  | _ :: _, _ :: _, _, .done h => by rcases h with h | h <;> cases h
  | _, _, _, .cons h1 h2 h3 => by
    rw [parseMapping, parseKey_says.2 h1]
    dsimp only
    rw [nodeSays_parse h2, mappingSays_parse h3]
end

/-- The nodes a file is read as. -/
def fileNodes : Yaml → List Node
  | .map ks vs =>
    match parseMapping ks vs with
    | .ok ns => ns
    | .error _ => []
  | _ => []

theorem fileSays_iff {y : Yaml} {ns : List Node} :
    FileSays y ns ↔ ∃ ks vs, y = .map ks vs ∧ parseMapping ks vs = .ok ns := by
  constructor
  · rintro ⟨ks, vs, e, h⟩; exact ⟨ks, vs, e, mappingSays_parse h⟩
  · rintro ⟨ks, vs, e, h⟩; exact ⟨ks, vs, e, parseMapping_says h⟩

/-- A file says one list of nodes at most. -/
theorem fileSays_nodes {y : Yaml} {ns : List Node} (h : FileSays y ns) : fileNodes y = ns := by
  obtain ⟨ks, vs, rfl, hp⟩ := fileSays_iff.1 h
  unfold fileNodes
  dsimp only
  rw [hp]

end Def
end Podo
