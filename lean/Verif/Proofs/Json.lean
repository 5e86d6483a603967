import Verif.Model.Json
import Verif.Spec.Json
import Verif.Proofs.Serde
/-
Lemmas for C103.
-/
namespace Podo
namespace Json
open Serde (Doc)

/-! ### Blanks -/

theorem isWs_iff {c : Char} : isWs c = true ↔ c = ' ' ∨ c = '\t' ∨ c = '\n' ∨ c = '\r' := by
  simp [isWs, or_assoc]

theorem skipWs_append {a x : List Char} (h : Ws a) : skipWs (a ++ x) = skipWs x := by
  induction a with
  | nil => rfl
  | cons c a ih =>
    have hc : isWs c = true := isWs_iff.2 (h c (by simp))
    simp only [skipWs, List.cons_append, List.dropWhile, hc]
    exact ih fun c' h' => h c' (by simp [h'])

theorem skipWs_split (x : List Char) : ∃ a, Ws a ∧ x = a ++ skipWs x := by
  induction x with
  | nil => exact ⟨[], by simp [Ws], rfl⟩
  | cons c x ih =>
    obtain ⟨a, ha, e⟩ := ih
    by_cases hc : isWs c = true
    · refine ⟨c :: a, ?_, ?_⟩
      · intro c' h'
        rcases List.mem_cons.1 h' with rfl | h'
        · exact isWs_iff.1 hc
        · exact ha c' h'
      · simp only [skipWs, List.dropWhile, hc, List.cons_append, List.cons.injEq, true_and]
        exact e
    · exact ⟨[], by simp [Ws], by simp [skipWs, List.dropWhile, hc]⟩

theorem skipWs_cons {c : Char} {x : List Char} (h : isWs c = false) : skipWs (c :: x) = c :: x := by
  simp [skipWs, List.dropWhile, h]

theorem ws_nil : Ws [] := by simp [Ws]

/-! ### Hexadecimal digits -/

theorem hexVal_iff {c : Char} {n : Nat} : hexVal c = some n ↔ HexDigit c n := by
  constructor
  · intro h
    simp only [hexVal] at h
    have h0 : ('0' : Char).toNat = 48 := rfl
    split at h
    · next hc =>
      have h1 : 48 ≤ c.toNat := hc.1
      have h2 : c.toNat ≤ 57 := hc.2
      obtain rfl := Option.some.inj h
      left
      refine ⟨by omega, ?_⟩
      rw [show 48 + (c.toNat - 48) = c.toNat by omega, Char.ofNat_toNat]
    · split at h
      · next hc =>
        have h1 : 97 ≤ c.toNat := hc.1
        have h2 : c.toNat ≤ 102 := hc.2
        obtain rfl := Option.some.inj h
        right
        refine ⟨by omega, by omega, Or.inl ?_⟩
        rw [show 87 + (c.toNat - 87) = c.toNat by omega, Char.ofNat_toNat]
      · split at h
        · next hc =>
          have h1 : 65 ≤ c.toNat := hc.1
          have h2 : c.toNat ≤ 70 := hc.2
          obtain rfl := Option.some.inj h
          right
          refine ⟨by omega, by omega, Or.inr ?_⟩
          rw [show 55 + (c.toNat - 55) = c.toNat by omega, Char.ofNat_toNat]
        · cases h
  · have key : ∀ n < 16, (n < 10 → hexVal (Char.ofNat (48 + n)) = some n) ∧
        (10 ≤ n → hexVal (Char.ofNat (87 + n)) = some n ∧ hexVal (Char.ofNat (55 + n)) = some n) := by decide
    rintro (⟨h, rfl⟩ | ⟨h, h', rfl | rfl⟩)
    · exact (key n (by omega)).1 h
    · exact ((key n h').2 h).1
    · exact ((key n h').2 h).2

theorem hexDigit_lt {c : Char} {n : Nat} (h : HexDigit c n) : n < 16 := by
  rcases h with ⟨h, _⟩ | ⟨_, h, _⟩ <;> omega

theorem hex4_iff {cs : List Char} {n : Nat} {rest : List Char} :
    hex4 cs = some (n, rest) ↔ ∃ h, Hex4 n h ∧ cs = h ++ rest := by
  constructor
  · intro h
    match cs, h with
    | [], h | [_], h | [_, _], h | [_, _, _], h => simp [hex4] at h
    | a :: b :: c :: d :: cs, h =>
      simp only [hex4] at h
      split at h
      · next w x y z hw hx hy hz =>
        simp only [Option.some.injEq, Prod.mk.injEq] at h
        obtain ⟨rfl, rfl⟩ := h
        refine ⟨[a, b, c, d], ?_, rfl⟩
        have := Hex4.mk (hexVal_iff.1 hw) (hexVal_iff.1 hx) (hexVal_iff.1 hy) (hexVal_iff.1 hz)
        rwa [show w * 4096 + x * 256 + y * 16 + z = ((w * 16 + x) * 16 + y) * 16 + z by omega] at this
      · cases h
  · rintro ⟨h, h4, rfl⟩
    cases h4 with
    | @mk a b c d w x y z ha hb hc hd =>
      simp only [List.cons_append, List.nil_append, hex4, hexVal_iff.2 ha, hexVal_iff.2 hb, hexVal_iff.2 hc,
        hexVal_iff.2 hd, Option.some.injEq, Prod.mk.injEq, and_true]
      omega

theorem hex4_lt {n : Nat} {h : List Char} (h4 : Hex4 n h) : n < 65536 := by
  cases h4 with
  | mk ha hb hc hd =>
    have := hexDigit_lt ha; have := hexDigit_lt hb; have := hexDigit_lt hc; have := hexDigit_lt hd
    omega

theorem hex4_length {n : Nat} {h : List Char} (h4 : Hex4 n h) : h.length = 4 := by cases h4; rfl

/-! ### Strings -/

/-- The text of one escape, after its backslash. -/
inductive EscText : Char → List Char → Prop
  | short {e c : Char} : Short e c → EscText c [e]
  | unicode {c : Char} {h : List Char} : Hex4 c.toNat h → EscText c ('u' :: h)
  | pair {c : Char} {n m : Nat} {h l : List Char} : 0xD800 ≤ n → n ≤ 0xDBFF → 0xDC00 ≤ m → m ≤ 0xDFFF →
      c.toNat = 0x10000 + (n - 0xD800) * 0x400 + (m - 0xDC00) → Hex4 n h → Hex4 m l →
      EscText c ('u' :: (h ++ '\\' :: 'u' :: l))

theorem StrText.esc {c : Char} {e s cs : List Char} (he : EscText c e) (hs : StrText s cs) :
    StrText (c :: s) ('\\' :: (e ++ cs)) := by
  cases he with
  | short h => exact .short h hs
  | unicode h => exact .unicode h hs
  | pair h1 h2 h3 h4 h5 h6 h7 =>
    have := StrText.pair h1 h2 h3 h4 h5 h6 h7 hs
    simpa [List.append_assoc] using this

theorem toNat_ofNat {n : Nat} (h : n.isValidChar) : (Char.ofNat n).toNat = n := by
  simp [Char.ofNat, h, Char.ofNatAux, Char.toNat]

theorem char_valid (c : Char) : c.toNat < 0xD800 ∨ (0xDFFF < c.toNat ∧ c.toNat < 0x110000) := c.valid

theorem readEscape_iff {cs : List Char} {c : Char} {rest : List Char} :
    readEscape cs = some (c, rest) ↔ ∃ e, EscText c e ∧ cs = e ++ rest := by
  constructor
  · intro h
    unfold readEscape at h
    split at h
    · simp only [Option.some.injEq, Prod.mk.injEq] at h; obtain ⟨rfl, rfl⟩ := h; exact ⟨_, .short .quote, rfl⟩
    · simp only [Option.some.injEq, Prod.mk.injEq] at h; obtain ⟨rfl, rfl⟩ := h; exact ⟨_, .short .backslash, rfl⟩
    · simp only [Option.some.injEq, Prod.mk.injEq] at h; obtain ⟨rfl, rfl⟩ := h; exact ⟨_, .short .slash, rfl⟩
    · simp only [Option.some.injEq, Prod.mk.injEq] at h; obtain ⟨rfl, rfl⟩ := h; exact ⟨_, .short .backspace, rfl⟩
    · simp only [Option.some.injEq, Prod.mk.injEq] at h; obtain ⟨rfl, rfl⟩ := h; exact ⟨_, .short .formFeed, rfl⟩
    · simp only [Option.some.injEq, Prod.mk.injEq] at h; obtain ⟨rfl, rfl⟩ := h; exact ⟨_, .short .lineFeed, rfl⟩
    · simp only [Option.some.injEq, Prod.mk.injEq] at h; obtain ⟨rfl, rfl⟩ := h
      exact ⟨_, .short .carriageReturn, rfl⟩
    · simp only [Option.some.injEq, Prod.mk.injEq] at h; obtain ⟨rfl, rfl⟩ := h; exact ⟨_, .short .tab, rfl⟩
    · split at h
      · cases h
      · next n cs' hn =>
        obtain ⟨x, hx, rfl⟩ := hex4_iff.1 hn
        have hlt := hex4_lt hx
        split at h
        · cases h
        · next hlow =>
          split at h
          · next hhigh =>
            split at h
            · split at h
              · cases h
              · next m cs'' hm =>
                obtain ⟨y, hy, rfl⟩ := hex4_iff.1 hm
                split at h
                · next hm2 =>
                  simp only [Option.some.injEq, Prod.mk.injEq] at h
                  obtain ⟨rfl, rfl⟩ := h
                  refine ⟨_, .pair hhigh.1 hhigh.2 hm2.1 hm2.2 ?_ hx hy, by simp⟩
                  apply toNat_ofNat
                  simp only [Nat.isValidChar]
                  omega
                · cases h
            · cases h
          · next hhigh =>
            simp only [Option.some.injEq, Prod.mk.injEq] at h
            obtain ⟨rfl, rfl⟩ := h
            have ev : (Char.ofNat n).toNat = n := by
              apply toNat_ofNat
              simp only [Nat.isValidChar]
              omega
            exact ⟨_, .unicode (by rwa [ev]), rfl⟩
    · cases h
  · rintro ⟨e, he, rfl⟩
    cases he with
    | short h => cases h <;> rfl
    | @unicode _ h hh =>
      have e4 := hex4_iff.2 ⟨h, hh, (rfl : h ++ rest = h ++ rest)⟩
      have hv := char_valid c
      simp only [List.cons_append, readEscape, e4]
      rw [if_neg (by omega), if_neg (by omega), Char.ofNat_toNat]
    | @pair _ n m h l h1 h2 h3 h4 h5 hh hl =>
      have e4 := hex4_iff.2 ⟨h, hh, (rfl : h ++ ('\\' :: 'u' :: (l ++ rest)) = h ++ ('\\' :: 'u' :: (l ++ rest)))⟩
      have e5 := hex4_iff.2 ⟨l, hl, (rfl : l ++ rest = l ++ rest)⟩
      simp only [List.cons_append, List.append_assoc, readEscape, e4, e5]
      rw [if_neg (by omega), if_pos ⟨h1, h2⟩, if_pos ⟨h3, h4⟩, ← h5, Char.ofNat_toNat]

theorem readStr_some : ∀ {f : Nat} {cs s rest : List Char}, readStr f cs = some (s, rest) →
    ∃ t, StrText s t ∧ cs = t ++ '"' :: rest
  | 0, _, _, _, h => by simp [readStr] at h
  | _ + 1, [], _, _, h => by simp [readStr] at h
  | f + 1, c :: cs, s, rest, h => by
    simp only [readStr] at h
    split at h
    · next hc =>
      simp only [Option.some.injEq, Prod.mk.injEq] at h
      obtain ⟨rfl, rfl⟩ := h
      exact ⟨[], .nil, by simp [hc]⟩
    · next hc =>
      split at h
      · next hb =>
        split at h
        · cases h
        · next x cs' hx =>
          split at h
          · cases h
          · next s' cs'' hs =>
            simp only [Option.some.injEq, Prod.mk.injEq] at h
            obtain ⟨rfl, rfl⟩ := h
            obtain ⟨e, he, rfl⟩ := readEscape_iff.1 hx
            obtain ⟨t, ht, rfl⟩ := readStr_some hs
            exact ⟨_, .esc he ht, by simp [hb]⟩
      · next hb =>
        split at h
        · cases h
        · next h32 =>
          split at h
          · cases h
          · next s' cs'' hs =>
            simp only [Option.some.injEq, Prod.mk.injEq] at h
            obtain ⟨rfl, rfl⟩ := h
            obtain ⟨t, ht, rfl⟩ := readStr_some hs
            exact ⟨_, .plain (by omega) hc hb ht, by simp⟩

theorem readStr_of {s t : List Char} (h : StrText s t) :
    ∀ {f : Nat} (rest : List Char), t.length < f → readStr f (t ++ '"' :: rest) = some (s, rest) := by
  induction h with
  | nil =>
    intro f rest hf
    obtain ⟨f, rfl⟩ : ∃ g, f = g + 1 := ⟨f - 1, by omega⟩
    simp [readStr]
  | @plain c s cs h1 h2 h3 _ ih =>
    intro f rest hf
    simp only [List.length_cons] at hf
    obtain ⟨f, rfl⟩ : ∃ g, f = g + 1 := ⟨f - 1, by omega⟩
    simp only [List.cons_append, readStr]
    rw [if_neg h2, if_neg h3, if_neg (by omega), ih rest (by omega)]
  | @short e c s cs h1 _ ih =>
    intro f rest hf
    simp only [List.length_cons] at hf
    obtain ⟨f, rfl⟩ : ∃ g, f = g + 1 := ⟨f - 1, by omega⟩
    have e2 : readEscape (e :: (cs ++ '"' :: rest)) = some (c, cs ++ '"' :: rest) :=
      readEscape_iff.2 ⟨[e], .short h1, rfl⟩
    simp only [List.cons_append, readStr]
    rw [if_neg (by decide), if_pos trivial, e2]
    simp only [ih rest (by omega : cs.length < f)]
  | @unicode c h s cs h1 _ ih =>
    intro f rest hf
    simp only [List.length_cons, List.length_append] at hf
    obtain ⟨f, rfl⟩ : ∃ g, f = g + 1 := ⟨f - 1, by omega⟩
    simp only [List.cons_append, readStr]
    rw [if_neg (by decide), if_pos trivial,
      readEscape_iff.2 ⟨'u' :: h, .unicode h1, (by simp : _ = _ ++ (cs ++ '"' :: rest))⟩]
    simp only [ih rest (by omega : cs.length < f)]
  | @pair c n m h l s cs h1 h2 h3 h4 h5 h6 h7 _ ih =>
    intro f rest hf
    simp only [List.length_cons, List.length_append] at hf
    obtain ⟨f, rfl⟩ : ∃ g, f = g + 1 := ⟨f - 1, by omega⟩
    simp only [List.cons_append, readStr]
    rw [if_neg (by decide), if_pos trivial,
      readEscape_iff.2 ⟨'u' :: (h ++ '\\' :: 'u' :: l), .pair h1 h2 h3 h4 h5 h6 h7,
        (by simp : _ = _ ++ (cs ++ '"' :: rest))⟩]
    simp only [ih rest (by omega : cs.length < f)]

/-! ### Numbers -/

/-- No text of a number goes on with this. -/
def Stops (rest : List Char) : Prop :=
  ∀ c ∈ rest.head?, c.isDigit = false ∧ c ≠ '.' ∧ c ≠ 'e' ∧ c ≠ 'E'

theorem takeWhile_digits {ds rest : List Char} (h : ∀ c ∈ ds, c.isDigit = true)
    (hr : ∀ c ∈ rest.head?, c.isDigit = false) :
    (ds ++ rest).takeWhile Char.isDigit = ds ∧ (ds ++ rest).dropWhile Char.isDigit = rest := by
  induction ds with
  | nil =>
    cases rest with
    | nil => simp
    | cons c rest => simp [List.takeWhile, List.dropWhile, hr c (by simp)]
  | cons c ds ih =>
    have := ih fun c' h' => h c' (by simp [h'])
    simp [List.takeWhile, List.dropWhile, h c (by simp), this.1, this.2]

theorem readNat_of {ds rest : List Char} (h : Digits ds) (hr : Stops rest) :
    readNat (ds ++ rest) = some (Nat.ofDigitChars 10 ds 0, rest) := by
  obtain ⟨h1, h2⟩ := takeWhile_digits h.2.1 fun c hc => (hr c hc).1
  simp only [readNat, h1, h2]
  rw [if_neg]
  · cases rest with
    | nil => rfl
    | cons c rest =>
      have := hr c (by simp)
      simp only
      rw [if_neg (by simp [this.2.1, this.2.2.1, this.2.2.2])]
  · rintro (h3 | ⟨h3, h4⟩)
    · exact h.1 h3
    · exact h4 (h.2.2 h3)

theorem readNat_some {cs : List Char} {n : Nat} {rest : List Char} (h : readNat cs = some (n, rest)) :
    ∃ ds, Digits ds ∧ n = Nat.ofDigitChars 10 ds 0 ∧ cs = ds ++ rest := by
  simp only [readNat] at h
  split at h
  · cases h
  · next hd =>
    have hD : Digits (cs.takeWhile Char.isDigit) := by
      refine ⟨fun e => hd (.inl e), ?_, fun e => ?_⟩
      · intro c hc; exact List.all_eq_true.1 List.all_takeWhile c hc
      · exact Classical.byContradiction fun e' => hd (.inr ⟨e, e'⟩)
    have e := (List.takeWhile_append_dropWhile (p := Char.isDigit) (l := cs)).symm
    split at h
    · next hn =>
      simp only [Option.some.injEq, Prod.mk.injEq] at h
      obtain ⟨rfl, rfl⟩ := h
      exact ⟨_, hD, rfl, by rw [hn] at e; exact e⟩
    · next c r hn =>
      split at h
      · cases h
      · simp only [Option.some.injEq, Prod.mk.injEq] at h
        obtain ⟨rfl, rfl⟩ := h
        exact ⟨_, hD, rfl, by rw [hn] at e; exact e⟩

theorem ofDigitChars_pos {ds : List Char} (h : Digits ds) (hz : ds ≠ ['0']) : 0 < Nat.ofDigitChars 10 ds 0 := by
  obtain ⟨h1, h2, h3⟩ := h
  cases ds with
  | nil => exact absurd rfl h1
  | cons c ds =>
    have hd := h2 c (by simp)
    have hc : c ≠ '0' := fun e => hz (h3 (by simp [e]))
    have h48 : 48 ≤ c.toNat := by
      simp only [Char.isDigit, Bool.and_eq_true, decide_eq_true_eq] at hd
      exact hd.1
    have hne : c.toNat ≠ 48 := fun e => hc (Char.ext (UInt32.toNat_inj.1 e))
    have hmono : ∀ (l : List Char) (n : Nat), 0 < n → 0 < Nat.ofDigitChars 10 l n := by
      intro l
      induction l with
      | nil => intro n h; simpa [Nat.ofDigitChars_nil] using h
      | cons x l ih => intro n h; rw [Nat.ofDigitChars_cons]; exact ih _ (by omega)
    rw [Nat.ofDigitChars_cons]
    have h0 : ('0' : Char).toNat = 48 := rfl
    exact hmono _ _ (by omega)

theorem readInt_of_digits {ds rest : List Char} (h : Digits ds) (hr : Stops rest) :
    readInt (ds ++ rest) = some ((Nat.ofDigitChars 10 ds 0 : Int), rest) := by
  have := readNat_of h hr
  obtain ⟨h1, h2, _⟩ := h
  cases ds with
  | nil => exact absurd rfl h1
  | cons c ds =>
    have hc : c ≠ '-' := fun e => absurd (h2 c (by simp)) (by rw [e]; decide)
    unfold readInt
    split
    · next heq => exact absurd (List.cons.inj heq).1 hc
    · rw [this]; rfl

theorem readInt_of_minus {ds rest : List Char} (h : Digits ds) (hz : ds ≠ ['0']) (hr : Stops rest) :
    readInt ('-' :: (ds ++ rest)) = some (-(Nat.ofDigitChars 10 ds 0 : Int), rest) := by
  have hp := ofDigitChars_pos h hz
  have := readNat_of h hr
  obtain ⟨n, hn⟩ : ∃ n, Nat.ofDigitChars 10 ds 0 = n + 1 := ⟨_, (Nat.succ_pred_eq_of_pos hp).symm⟩
  simp only [readInt, this, hn]

theorem readInt_some {cs : List Char} {i : Int} {rest : List Char} (h : readInt cs = some (i, rest)) :
    ∃ t, Says (.value (.int i)) t ∧ cs = t ++ rest := by
  unfold readInt at h
  split at h
  · split at h
    · next n r hn =>
      simp only [Option.some.injEq, Prod.mk.injEq] at h
      obtain ⟨rfl, rfl⟩ := h
      obtain ⟨ds, hd, hv, rfl⟩ := readNat_some hn
      refine ⟨'-' :: ds, ?_, rfl⟩
      have hv' : n + 1 = Nat.ofDigitChars 10 ds 0 := hv
      rw [hv']
      refine .minus hd ?_
      rintro rfl
      exact absurd hv (by simp [Nat.ofDigitChars_cons, Nat.ofDigitChars_nil])
    · cases h
  · simp only [Option.map_eq_some_iff] at h
    obtain ⟨⟨n, r⟩, hn, e⟩ := h
    simp only [Prod.mk.injEq] at e
    obtain ⟨rfl, rfl⟩ := e
    obtain ⟨ds, hd, rfl, rfl⟩ := readNat_some hn
    exact ⟨ds, .int hd, rfl⟩

/-! ### Reading what the grammar allows -/

theorem says_head {d : Doc} {t : List Char} (h : Says (.value d) t) :
    ∃ c t', t = c :: t' ∧ isWs c = false ∧ c ≠ ']' ∧ c ≠ '}' := by
  have dig : ∀ {cs : List Char}, Digits cs → ∃ c t', cs = c :: t' ∧ isWs c = false ∧ c ≠ ']' ∧ c ≠ '}' := by
    rintro cs ⟨h1, h2, _⟩
    cases cs with
    | nil => exact absurd rfl h1
    | cons c cs =>
      have hc := h2 c (by simp)
      refine ⟨c, cs, rfl, ?_, ?_, ?_⟩
      · cases hw : isWs c with
        | false => rfl
        | true => rcases isWs_iff.1 hw with rfl | rfl | rfl | rfl <;> exact absurd hc (by decide)
      · rintro rfl; exact absurd hc (by decide)
      · rintro rfl; exact absurd hc (by decide)
  cases h with
  | int h => exact dig h
  | _ => exact ⟨_, _, rfl, by decide, by decide, by decide⟩

theorem value_ws {a x : List Char} (h : Ws a) (f D : Nat) : value f D (a ++ x) = value f D x := by
  cases f with
  | zero => simp only [value]
  | succ f => simp only [value, skipWs_append h]

theorem stops_ws {b x : List Char} (h : Ws b) (hx : Stops x) : Stops (b ++ x) := by
  cases b with
  | nil => exact hx
  | cons c b =>
    intro c' h'
    simp only [List.cons_append, List.head?_cons, Option.mem_def, Option.some.injEq] at h'
    subst h'
    rcases h c (by simp) with rfl | rfl | rfl | rfl <;> decide

theorem stops_cons {c : Char} {x : List Char} (h : c.isDigit = false ∧ c ≠ '.' ∧ c ≠ 'e' ∧ c ≠ 'E') : Stops (c :: x) := by
  intro c' h'
  simp only [List.head?_cons, Option.mem_def, Option.some.injEq] at h'
  exact h' ▸ h

theorem stops_nil : Stops [] := by simp [Stops]

/-- What the parser does with the text of a part. -/
def Reads (t : List Char) : Part → Prop
  | .value d => ∀ f D rest, Stops rest → 2 * t.length ≤ f → nest d < D → value f D (t ++ rest) = some (d, rest)
  | .items ds => ∀ f D rest, 2 * t.length + 1 ≤ f → nestAll ds < D → items f D (t ++ ']' :: rest) = some (ds, rest)
  | .entries es => ∀ f D rest, 2 * t.length + 1 ≤ f → nestEntries es < D →
      entries f D (t ++ '}' :: rest) = some (es, rest)

theorem value_int {f D : Nat} {c : Char} {cs : List Char} (h : c.isDigit = true ∨ c = '-') :
    value (f + 1) D (c :: cs) = (readInt (c :: cs)).map fun (i, cs) => (.int i, cs) := by
  have hw : isWs c = false := by
    cases hw : isWs c with
    | false => rfl
    | true =>
      rcases isWs_iff.1 hw with rfl | rfl | rfl | rfl <;> rcases h with h | h <;> exact absurd h (by decide)
  have ne : ∀ x : Char, x.isDigit = false → x ≠ '-' → c ≠ x := by
    rintro x h1 h2 rfl
    rcases h with h | h
    · exact absurd h (by simp [h1])
    · exact h2 h
  simp only [value, skipWs_cons hw]
  split <;> first
    | (next heq => exact absurd (List.cons.inj heq).1 (ne _ (by decide) (by decide)))
    | rfl

theorem reads_of_says {p : Part} {t : List Char} (h : Says p t) : Reads t p := by
  induction h with
  | null =>
    intro f D rest _ hf _
    obtain ⟨f, rfl⟩ : ∃ g, f = g + 1 := ⟨f - 1, by simp at hf; omega⟩
    simp [value, skipWs_cons (show isWs 'n' = false by decide)]
  | true_ =>
    intro f D rest _ hf _
    obtain ⟨f, rfl⟩ : ∃ g, f = g + 1 := ⟨f - 1, by simp at hf; omega⟩
    simp [value, skipWs_cons (show isWs 't' = false by decide)]
  | false_ =>
    intro f D rest _ hf _
    obtain ⟨f, rfl⟩ : ∃ g, f = g + 1 := ⟨f - 1, by simp at hf; omega⟩
    simp [value, skipWs_cons (show isWs 'f' = false by decide)]
  | @int cs h =>
    intro f D rest hr hf _
    have e := readInt_of_digits h hr
    obtain ⟨h1, h2, _⟩ := h
    cases cs with
    | nil => exact absurd rfl h1
    | cons c cs =>
      obtain ⟨f, rfl⟩ : ∃ g, f = g + 1 := ⟨f - 1, by simp at hf; omega⟩
      rw [List.cons_append, value_int (.inl (h2 c (by simp))), ← List.cons_append, e]
      rfl
  | @minus cs h hz =>
    intro f D rest hr hf _
    have e := readInt_of_minus h hz hr
    obtain ⟨f, rfl⟩ : ∃ g, f = g + 1 := ⟨f - 1, by simp at hf; omega⟩
    rw [List.cons_append, value_int (.inr rfl), e]
    rfl
  | @str s cs h =>
    intro f D rest hr hf _
    obtain ⟨f, rfl⟩ : ∃ g, f = g + 1 := ⟨f - 1, by simp at hf; omega⟩
    have e := readStr_of h (f := (cs ++ '"' :: rest).length + 1) rest (by simp; omega)
    simp only [List.cons_append, List.append_assoc, List.nil_append, value,
      skipWs_cons (show isWs '"' = false by decide), e, Option.map_some, String.ofList_toList]
  | @emptySeq w hw =>
    intro f D rest hr hf hD
    obtain ⟨f, rfl⟩ : ∃ g, f = g + 1 := ⟨f - 1, by simp at hf; omega⟩
    obtain ⟨D, rfl⟩ : ∃ g, D = g + 2 := ⟨D - 2, by simp [nest, nestAll] at hD; omega⟩
    simp only [List.cons_append, List.append_assoc, List.nil_append, value,
      skipWs_cons (show isWs '[' = false by decide), skipWs_append hw, skipWs_cons (show isWs ']' = false by decide)]
  | @seq ds cs h ih =>
    intro f D rest hr hf hD
    simp only [List.length_cons, List.length_append, List.length_nil] at hf
    obtain ⟨f, rfl⟩ : ∃ g, f = g + 1 := ⟨f - 1, by omega⟩
    simp only [nest] at hD
    obtain ⟨D, rfl⟩ : ∃ g, D = g + 2 := ⟨D - 2, by omega⟩
    have e := ih f (D + 1) rest (by omega) (by omega)
    have hd : ∃ c x, skipWs (cs ++ ']' :: rest) = c :: x ∧ c ≠ ']' := by
      cases h with
      | item ha hv _ =>
        obtain ⟨c, t', rfl, hc, h1, _⟩ := says_head hv
        exact ⟨c, _, by rw [List.append_assoc, skipWs_append ha]; exact skipWs_cons hc, h1⟩
      | items ha hv _ _ =>
        obtain ⟨c, t', rfl, hc, h1, _⟩ := says_head hv
        exact ⟨c, _, by rw [List.append_assoc, skipWs_append ha]; exact skipWs_cons hc, h1⟩
    obtain ⟨c, x, hs, hc⟩ := hd
    simp only [List.cons_append, List.append_assoc, List.nil_append, value,
      skipWs_cons (show isWs '[' = false by decide), hs, e, Option.map_some]
    split
    · next heq => exact absurd (List.cons.inj heq).1 hc
    · rfl
  | @emptyMap w hw =>
    intro f D rest hr hf hD
    obtain ⟨f, rfl⟩ : ∃ g, f = g + 1 := ⟨f - 1, by simp at hf; omega⟩
    obtain ⟨D, rfl⟩ : ∃ g, D = g + 2 := ⟨D - 2, by simp [nest, nestEntries] at hD; omega⟩
    simp only [List.cons_append, List.append_assoc, List.nil_append, value,
      skipWs_cons (show isWs '{' = false by decide), skipWs_append hw, skipWs_cons (show isWs '}' = false by decide)]
  | @map es cs h ih =>
    intro f D rest hr hf hD
    simp only [List.length_cons, List.length_append, List.length_nil] at hf
    obtain ⟨f, rfl⟩ : ∃ g, f = g + 1 := ⟨f - 1, by omega⟩
    simp only [nest] at hD
    obtain ⟨D, rfl⟩ : ∃ g, D = g + 2 := ⟨D - 2, by omega⟩
    have e := ih f (D + 1) rest (by omega) (by omega)
    have hd : ∃ x, skipWs (cs ++ '}' :: rest) = '"' :: x := by
      cases h with
      | entry ha _ _ _ _ _ =>
        exact ⟨_, by rw [List.append_assoc, skipWs_append ha]; exact skipWs_cons (by decide)⟩
      | entries ha _ _ _ _ _ _ =>
        exact ⟨_, by rw [List.append_assoc, skipWs_append ha]; exact skipWs_cons (by decide)⟩
    obtain ⟨x, hs⟩ := hd
    simp only [List.cons_append, List.append_assoc, List.nil_append, value,
      skipWs_cons (show isWs '{' = false by decide), hs, e, Option.map_some]
    split
    · next heq => exact absurd (List.cons.inj heq).1 (by decide)
    · rfl
  | @item d a cs b ha _ hb ih =>
    intro f D rest hf hD
    simp only [List.length_append] at hf
    obtain ⟨f, rfl⟩ : ∃ g, f = g + 1 := ⟨f - 1, by omega⟩
    simp only [nestAll] at hD
    simp only [items, List.append_assoc, List.cons_append, value_ws ha]
    rw [ih f D _ (stops_ws hb (stops_cons (by decide))) (by omega) (by omega)]
    simp only [skipWs_append hb, skipWs_cons (show isWs ']' = false by decide)]
  | @items d ds a cs b cs' ha _ hb _ ih ih' =>
    intro f D rest hf hD
    simp only [List.length_append, List.length_cons] at hf
    obtain ⟨f, rfl⟩ : ∃ g, f = g + 1 := ⟨f - 1, by omega⟩
    simp only [nestAll] at hD
    simp only [items, List.append_assoc, List.cons_append, value_ws ha]
    rw [ih f D _ (stops_ws hb (stops_cons (by decide))) (by omega) (by omega)]
    simp only [List.cons_append, skipWs_append hb, skipWs_cons (show isWs ',' = false by decide),
      ih' f D rest (by omega) (by omega), Option.map_some]
  | @entry k d a ks b c cs e ha hk hb hc _ he ih =>
    intro f D rest hf hD
    simp only [List.length_append, List.length_cons] at hf
    obtain ⟨f, rfl⟩ : ∃ g, f = g + 1 := ⟨f - 1, by omega⟩
    simp only [nestEntries, nestEntry] at hD
    simp only [entries, List.append_assoc, List.cons_append, skipWs_append ha,
      skipWs_cons (show isWs '"' = false by decide)]
    rw [readStr_of hk _ (by simp; omega)]
    simp only [skipWs_append hb, skipWs_cons (show isWs ':' = false by decide), value_ws hc]
    rw [ih f D _ (stops_ws he (stops_cons (by decide))) (by omega) (by omega)]
    simp only [skipWs_append he, skipWs_cons (show isWs '}' = false by decide), String.ofList_toList]
  | @entries k d es a ks b c cs e cs' ha hk hb hc _ he _ ih ih' =>
    intro f D rest hf hD
    simp only [List.length_append, List.length_cons] at hf
    obtain ⟨f, rfl⟩ : ∃ g, f = g + 1 := ⟨f - 1, by omega⟩
    simp only [nestEntries, nestEntry] at hD
    simp only [entries, List.append_assoc, List.cons_append, skipWs_append ha,
      skipWs_cons (show isWs '"' = false by decide)]
    rw [readStr_of hk _ (by simp; omega)]
    simp only [skipWs_append hb, skipWs_cons (show isWs ':' = false by decide), value_ws hc]
    rw [ih f D _ (stops_ws he (stops_cons (by decide))) (by omega) (by omega)]
    simp only [skipWs_append he, skipWs_cons (show isWs ',' = false by decide), String.ofList_toList,
      ih' f D rest (by omega) (by omega), Option.map_some]

/-! ### Reading nothing else -/

theorem says_of_reads (f : Nat) :
    (∀ D cs d rest, 0 < D → value f D cs = some (d, rest) →
      ∃ a t, Ws a ∧ Says (.value d) t ∧ nest d < D ∧ cs = a ++ (t ++ rest)) ∧
    (∀ D cs ds rest, 0 < D → items f D cs = some (ds, rest) →
      ∃ t, Says (.items ds) t ∧ nestAll ds < D ∧ cs = t ++ ']' :: rest) ∧
    (∀ D cs es rest, 0 < D → entries f D cs = some (es, rest) →
      ∃ t, Says (.entries es) t ∧ nestEntries es < D ∧ cs = t ++ '}' :: rest) := by
  induction f with
  | zero => refine ⟨?_, ?_, ?_⟩ <;> intro D cs d rest _ h <;> simp [value, items, entries] at h
  | succ f ih =>
    obtain ⟨ihv, ihi, ihe⟩ := ih
    refine ⟨?_, ?_, ?_⟩
    · intro D cs d rest hD h
      obtain ⟨a, ha, hcs⟩ := skipWs_split cs
      simp only [value] at h
      generalize skipWs cs = y at h hcs
      subst hcs
      split at h
      · simp only [Option.some.injEq, Prod.mk.injEq] at h; obtain ⟨rfl, rfl⟩ := h
        exact ⟨a, _, ha, .null, by simpa [nest] using hD, rfl⟩
      · simp only [Option.some.injEq, Prod.mk.injEq] at h; obtain ⟨rfl, rfl⟩ := h
        exact ⟨a, _, ha, .true_, by simpa [nest] using hD, rfl⟩
      · simp only [Option.some.injEq, Prod.mk.injEq] at h; obtain ⟨rfl, rfl⟩ := h
        exact ⟨a, _, ha, .false_, by simpa [nest] using hD, rfl⟩
      · simp only [Option.map_eq_some_iff] at h
        obtain ⟨⟨s, r⟩, hs, e⟩ := h
        simp only [Prod.mk.injEq] at e
        obtain ⟨rfl, rfl⟩ := e
        obtain ⟨t, ht, rfl⟩ := readStr_some hs
        exact ⟨a, _, ha, .str (by rw [String.toList_ofList]; exact ht), by simpa [nest] using hD, by simp⟩
      · next x =>
        split at h
        · next D =>
          obtain ⟨b, hb, hx⟩ := skipWs_split x
          split at h
          · next z hz =>
            simp only [Option.some.injEq, Prod.mk.injEq] at h; obtain ⟨rfl, rfl⟩ := h
            rw [hz] at hx
            exact ⟨a, _, ha, .emptySeq hb, by simp [nest, nestAll], by simp [hx]⟩
          · simp only [Option.map_eq_some_iff] at h
            obtain ⟨⟨ds, r⟩, hs, e⟩ := h
            simp only [Prod.mk.injEq] at e
            obtain ⟨rfl, rfl⟩ := e
            obtain ⟨t, ht, hn, rfl⟩ := ihi _ _ _ _ (by omega) hs
            exact ⟨a, _, ha, .seq ht, by simp only [nest]; omega, by simp⟩
        · cases h
      · next x =>
        split at h
        · next D =>
          obtain ⟨b, hb, hx⟩ := skipWs_split x
          split at h
          · next z hz =>
            simp only [Option.some.injEq, Prod.mk.injEq] at h; obtain ⟨rfl, rfl⟩ := h
            rw [hz] at hx
            exact ⟨a, _, ha, .emptyMap hb, by simp [nest, nestEntries], by simp [hx]⟩
          · simp only [Option.map_eq_some_iff] at h
            obtain ⟨⟨ds, r⟩, hs, e⟩ := h
            simp only [Prod.mk.injEq] at e
            obtain ⟨rfl, rfl⟩ := e
            obtain ⟨t, ht, hn, rfl⟩ := ihe _ _ _ _ (by omega) hs
            exact ⟨a, _, ha, .map ht, by simp only [nest]; omega, by simp⟩
        · cases h
      · simp only [Option.map_eq_some_iff] at h
        obtain ⟨⟨i, r⟩, hs, e⟩ := h
        simp only [Prod.mk.injEq] at e
        obtain ⟨rfl, rfl⟩ := e
        obtain ⟨t, ht, e⟩ := readInt_some hs
        exact ⟨a, t, ha, ht, by simpa [nest] using hD, by rw [e]⟩
    · intro D cs ds rest hD h
      simp only [items] at h
      split at h
      · cases h
      · next d x hv =>
        obtain ⟨a, t, ha, ht, hn, rfl⟩ := ihv _ _ _ _ hD hv
        obtain ⟨b, hb, hx⟩ := skipWs_split x
        split at h
        · next z hz =>
          simp only [Option.some.injEq, Prod.mk.injEq] at h; obtain ⟨rfl, rfl⟩ := h
          rw [hz] at hx
          exact ⟨_, .item ha ht hb, by simp only [nestAll]; omega, by simp [hx]⟩
        · next z hz =>
          simp only [Option.map_eq_some_iff] at h
          obtain ⟨⟨ds, r⟩, hs, e⟩ := h
          simp only [Prod.mk.injEq] at e
          obtain ⟨rfl, rfl⟩ := e
          obtain ⟨t', ht', hn', rfl⟩ := ihi _ _ _ _ hD hs
          rw [hz] at hx
          exact ⟨_, .items ha ht hb ht', by simp only [nestAll]; omega, by simp [hx]⟩
        · cases h
    · intro D cs es rest hD h
      obtain ⟨a, ha, hcs⟩ := skipWs_split cs
      simp only [entries] at h
      split at h
      · next y hy =>
        rw [hy] at hcs
        split at h
        · cases h
        · next k x hk =>
          obtain ⟨ks, hks, rfl⟩ := readStr_some hk
          have hks' : StrText (String.ofList k).toList ks := by rw [String.toList_ofList]; exact hks
          obtain ⟨b, hb, hx⟩ := skipWs_split x
          split at h
          · next y hy =>
            rw [hy] at hx
            split at h
            · cases h
            · next d x' hv =>
              obtain ⟨c, t, hc, ht, hn, rfl⟩ := ihv _ _ _ _ hD hv
              obtain ⟨e, he, hx'⟩ := skipWs_split x'
              split at h
              · next z hz =>
                simp only [Option.some.injEq, Prod.mk.injEq] at h; obtain ⟨rfl, rfl⟩ := h
                rw [hz] at hx'
                exact ⟨_, .entry ha hks' hb hc ht he, by simp only [nestEntries, nestEntry]; omega,
                  by rw [hcs, hx, hx']; simp⟩
              · next z hz =>
                simp only [Option.map_eq_some_iff] at h
                obtain ⟨⟨es, r⟩, hs, e⟩ := h
                simp only [Prod.mk.injEq] at e
                obtain ⟨rfl, rfl⟩ := e
                obtain ⟨t', ht', hn', rfl⟩ := ihe _ _ _ _ hD hs
                rw [hz] at hx'
                exact ⟨_, .entries ha hks' hb hc ht he ht', by simp only [nestEntries, nestEntry]; omega,
                  by rw [hcs, hx, hx']; simp⟩
              · cases h
          · cases h
      · cases h

theorem skipWs_eq_nil {x : List Char} : skipWs x = [] ↔ Ws x := by
  constructor
  · intro h
    obtain ⟨a, ha, e⟩ := skipWs_split x
    rw [h, List.append_nil] at e
    exact e ▸ ha
  · intro h
    have := skipWs_append (x := []) h
    rw [List.append_nil] at this
    exact this

theorem parse_iff {text : String} {d : Doc} : parse text = some d ↔ JsonText d text ∧ nest d ≤ 127 := by
  constructor
  · intro h
    unfold parse at h
    split at h
    · next d' rest hv =>
      split at h
      · next hs =>
        obtain rfl := Option.some.inj h
        obtain ⟨a, t, ha, ht, hn, e⟩ := (says_of_reads _).1 _ _ _ _ (by decide) hv
        exact ⟨⟨a, t, rest, ha, ht, skipWs_eq_nil.1 hs, e⟩, by omega⟩
      · cases h
    · cases h
  · rintro ⟨⟨a, t, b, ha, ht, hb, e⟩, hn⟩
    unfold parse
    rw [e, value_ws ha, reads_of_says ht _ 128 b (by have := stops_ws hb stops_nil; rwa [List.append_nil] at this)
      (by simp; omega) (by omega)]
    simp only
    rw [if_pos (skipWs_eq_nil.2 hb)]

theorem one_meaning {d d' : Doc} {text : String} (h : JsonText d text) (h' : JsonText d' text) : d = d' := by
  obtain ⟨a, t, b, ha, ht, hb, e⟩ := h
  obtain ⟨a', t', b', ha', ht', hb', e'⟩ := h'
  have st : ∀ {b : List Char}, Ws b → Stops b := fun hb => by
    have := stops_ws hb stops_nil; rwa [List.append_nil] at this
  have r := reads_of_says ht (2 * (t.length + t'.length)) (nest d + nest d' + 1) b (st hb) (by omega) (by omega)
  have r' := reads_of_says ht' (2 * (t.length + t'.length)) (nest d + nest d' + 1) b' (st hb') (by omega) (by omega)
  rw [← value_ws ha, ← e] at r
  rw [← value_ws ha', ← e', r] at r'
  exact (Prod.mk.inj (Option.some.inj r')).1

/-! ### Writing -/

theorem escape_says (c : Char) {s cs : List Char} (h : StrText s cs) : StrText (c :: s) (escape c ++ cs) := by
  have nat : ∀ {n : Nat}, c.toNat = n → n.isValidChar → c = Char.ofNat n := by
    intro n hn _
    rw [← hn, Char.ofNat_toNat]
  unfold escape
  split
  · next e => subst e; exact .short .quote h
  split
  · next e => subst e; exact .short .backslash h
  split
  · next e => rw [nat e (by decide)]; exact .short .backspace h
  split
  · next e => rw [nat e (by decide)]; exact .short .tab h
  split
  · next e => rw [nat e (by decide)]; exact .short .lineFeed h
  split
  · next e => rw [nat e (by decide)]; exact .short .formFeed h
  split
  · next e => rw [nat e (by decide)]; exact .short .carriageReturn h
  split
  · next hl =>
    have hd : ∀ n < 16, HexDigit (hexDigit n) n := by
      intro n hn
      unfold hexDigit
      split
      · next h10 => exact .inl ⟨h10, rfl⟩
      · next h10 => exact .inr ⟨by omega, hn, .inl rfl⟩
    have h4 := Hex4.mk (hd 0 (by decide)) (hd 0 (by decide)) (hd (c.toNat / 16) (by omega))
      (hd (c.toNat % 16) (by omega))
    rw [show 0 * 4096 + 0 * 256 + c.toNat / 16 * 16 + c.toNat % 16 = c.toNat by omega] at h4
    exact .unicode h4 h
  · next hq hb _ _ _ _ _ h32 => exact .plain (by omega) hq hb h

theorem escapes_say (s : List Char) : StrText s (s.flatMap escape) := by
  induction s with
  | nil => exact .nil
  | cons c s ih => exact escape_says c ih

theorem toDigits_head {n : Nat} (h : 0 < n) : (Nat.toDigits 10 n).head? ≠ some '0' := by
  induction n using Nat.strongRecOn with
  | _ n ih =>
    by_cases hn : n < 10
    · rw [Nat.toDigits_of_lt_base hn]
      have : ∀ n < 10, 0 < n → [Nat.digitChar n].head? ≠ some '0' := by decide
      exact this n hn h
    · rw [Nat.toDigits_of_base_le (by decide) (by omega)]
      have := ih (n / 10) (by omega) (by omega)
      cases hh : Nat.toDigits 10 (n / 10) with
      | nil => exact absurd hh Nat.toDigits_ne_nil
      | cons c cs => rw [hh] at this; simpa using this

theorem digits_toDigits (n : Nat) : Digits (Nat.toDigits 10 n) := by
  refine ⟨Nat.toDigits_ne_nil, fun c hc => Nat.isDigit_of_mem_toDigits (by decide) (by decide) hc, fun h => ?_⟩
  rcases Nat.eq_zero_or_pos n with rfl | hn
  · exact Nat.toDigits_zero 10
  · exact absurd h (toDigits_head hn)

theorem writeInt_says (i : Int) : Says (.value (.int i)) (writeInt i) := by
  unfold writeInt
  have hd := digits_toDigits i.natAbs
  have hv : Nat.ofDigitChars 10 (Nat.toDigits 10 i.natAbs) 0 = i.natAbs := Nat.ofDigitChars_ten_toDigits
  split
  · next hi =>
    have hz : Nat.toDigits 10 i.natAbs ≠ ['0'] := fun e => toDigits_head (n := i.natAbs) (by omega) (by rw [e]; rfl)
    have := Says.minus hd hz
    rw [hv] at this
    rwa [show -(i.natAbs : Int) = i by omega] at this
  · next hi =>
    have := Says.int hd
    rw [hv] at this
    rwa [show (i.natAbs : Int) = i by omega] at this

theorem writeStr_says (s : String) : Says (.value (.str s)) (writeStr s) := .str (escapes_say s.toList)

mutual
theorem write_says : ∀ d : Doc, Says (.value d) (write d)
  | .null => .null
  | .bool true => .true_
  | .bool false => .false_
  | .int i => writeInt_says i
  | .str s => writeStr_says s
  | .seq ds => by
    have h := writeItems_says ds
    cases ds with
    | nil => exact .emptySeq ws_nil
    | cons d ds => exact .seq (h (by simp))
  | .map es => by
    have h := writeEntries_says es
    cases es with
    | nil => exact .emptyMap ws_nil
    | cons e es => exact .map (h (by simp))
theorem writeItems_says : ∀ ds : List Doc, ds ≠ [] → Says (.items ds) (writeItems true ds)
  | [], h => absurd rfl h
  | d :: ds, _ => by
    have h1 := write_says d
    have h2 := writeItems_says ds
    cases ds with
    | nil => simpa [writeItems] using Says.item ws_nil h1 ws_nil
    | cons d' ds => simpa [writeItems] using Says.items ws_nil h1 ws_nil (h2 (by simp))
theorem writeEntries_says : ∀ es : List (String × Doc), es ≠ [] → Says (.entries es) (writeEntries true es)
  | [], h => absurd rfl h
  | e :: es, _ => by
    have h1 := writeEntry_says e
    have h2 := writeEntries_says es
    obtain ⟨k, d⟩ := e
    cases es with
    | nil =>
      simpa [writeEntries, writeEntry, writeStr] using
        Says.entry ws_nil (escapes_say k.toList) ws_nil ws_nil h1 ws_nil
    | cons e es =>
      simpa [writeEntries, writeEntry, writeStr] using
        Says.entries ws_nil (escapes_say k.toList) ws_nil ws_nil h1 ws_nil (h2 (by simp))
theorem writeEntry_says : ∀ e : String × Doc, Says (.value e.2) (write e.2)
  | (_, d) => write_says d
end

/-- Only characters that can be printed. -/
def Clean (cs : List Char) : Prop := ∀ c ∈ cs, 32 ≤ c.toNat

instance (cs : List Char) : Decidable (Clean cs) := inferInstanceAs (Decidable (∀ c ∈ cs, 32 ≤ c.toNat))

theorem Clean.append {a b : List Char} (ha : Clean a) (hb : Clean b) : Clean (a ++ b) := by
  intro c hc
  rcases List.mem_append.1 hc with h | h
  · exact ha c h
  · exact hb c h

theorem Clean.cons {c : Char} {b : List Char} (hc : 32 ≤ c.toNat) (hb : Clean b) : Clean (c :: b) := by
  intro c' h
  rcases List.mem_cons.1 h with rfl | h
  · exact hc
  · exact hb c' h

theorem Clean.nil : Clean [] := by simp [Clean]

theorem clean_digits {ds : List Char} (h : Digits ds) : Clean ds := by
  intro c hc
  have hd := h.2.1 c hc
  simp only [Char.isDigit, Bool.and_eq_true, decide_eq_true_eq] at hd
  have : 48 ≤ c.toNat := hd.1
  omega

theorem clean_escape (c : Char) : Clean (escape c) := by
  unfold escape
  split
  · decide
  split
  · decide
  split
  · decide
  split
  · decide
  split
  · decide
  split
  · decide
  split
  · decide
  split
  · next h =>
    have hd : ∀ n < 16, 32 ≤ (hexDigit n).toNat := by decide
    exact .cons (by decide) (.cons (by decide) (.cons (by decide) (.cons (by decide)
      (.cons (hd _ (by omega)) (.cons (hd _ (by omega)) .nil)))))
  · exact .cons (by omega) .nil

theorem clean_str (s : String) : Clean (writeStr s) := by
  refine .cons (by decide) (.append ?_ (.cons (by decide) .nil))
  intro c hc
  obtain ⟨x, _, hx⟩ := List.mem_flatMap.1 hc
  exact clean_escape x c hx

theorem clean_int (i : Int) : Clean (writeInt i) := by
  unfold writeInt
  split
  · exact .cons (by decide) (clean_digits (digits_toDigits _))
  · exact clean_digits (digits_toDigits _)

mutual
theorem clean_write : ∀ d : Doc, Clean (write d)
  | .null => by simp only [write]; decide
  | .bool true => by simp only [write]; decide
  | .bool false => by simp only [write]; decide
  | .int i => by simp only [write]; exact clean_int i
  | .str s => by simp only [write]; exact clean_str s
  | .seq ds => by simp only [write]; exact .cons (by decide) (.append (clean_items true ds) (.cons (by decide) .nil))
  | .map es => by simp only [write]; exact .cons (by decide) (.append (clean_entries true es) (.cons (by decide) .nil))
theorem clean_items : ∀ (first : Bool) (ds : List Doc), Clean (writeItems first ds)
  | _, [] => by simp only [writeItems]; exact .nil
  | first, d :: ds => by
    simp only [writeItems]
    refine .append ?_ (.append (clean_write d) (clean_items false ds))
    cases first <;> decide
theorem clean_entries : ∀ (first : Bool) (es : List (String × Doc)), Clean (writeEntries first es)
  | _, [] => by simp only [writeEntries]; exact .nil
  | first, e :: es => by
    simp only [writeEntries]
    refine .append ?_ (.append (clean_entry e) (clean_entries false es))
    cases first <;> decide
theorem clean_entry : ∀ e : String × Doc, Clean (writeEntry e)
  | (k, d) => by simp only [writeEntry]; exact .append (clean_str k) (.cons (by decide) (clean_write d))
end

/-! ### How deep changes are -/

theorem nestAll_le {ds : List Doc} {n : Nat} (h : ∀ d ∈ ds, nest d ≤ n) : nestAll ds ≤ n := by
  induction ds with
  | nil => simp [nestAll]
  | cons d ds ih =>
    have h1 := h d (by simp)
    have h2 := ih fun d' h' => h d' (by simp [h'])
    simp only [nestAll]
    omega

theorem nest_strs (ss : List String) : nest (Serde.strsDoc ss) ≤ 1 := by
  simp only [Serde.strsDoc, nest]
  have : nestAll (ss.map Doc.str) ≤ 0 := nestAll_le (by
    intro d hd
    obtain ⟨s, _, rfl⟩ := List.mem_map.1 hd
    simp [nest])
  omega

theorem nest_opt (o : Option String) : nest (Serde.optDoc o) = 0 := by cases o <;> rfl

theorem nest_columns (cs : List NewColumn) : nest (.seq (cs.map Serde.columnDoc)) ≤ 2 := by
  simp only [nest]
  have : nestAll (cs.map Serde.columnDoc) ≤ 1 := nestAll_le (by
    intro d hd
    obtain ⟨c, _, rfl⟩ := List.mem_map.1 hd
    simp [Serde.columnDoc, nest, nestEntries, nestEntry, nest_opt])
  omega

theorem nest_change (c : Change) : nest (Serde.changeDoc c) ≤ 4 := by
  cases c <;> simp only [Serde.changeDoc, Serde.tagged, nest, nestEntries, nestEntry, nest_opt] <;>
    first
    | omega
    | (have hs := fun ss => nest_strs ss
       have hc := fun cs => nest_columns cs
       simp only [nest] at hs hc
       grind)

theorem nest_changes (cs : List Change) : nest (Serde.changesDoc cs) ≤ 5 := by
  simp only [Serde.changesDoc, nest]
  have : nestAll (cs.map Serde.changeDoc) ≤ 4 := nestAll_le (by
    intro d hd
    obtain ⟨c, _, rfl⟩ := List.mem_map.1 hd
    exact nest_change c)
  omega

end Json
end Podo
