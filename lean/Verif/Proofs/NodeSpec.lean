import Verif.Spec.Def
/-
The vocabulary of `Spec/Def` agrees with what the model computes.
-/
namespace Podo
namespace Def
open Text

theorem isWs_iff (c : Char) : isWs c = true ↔ Blank c := by
  unfold isWs Blank
  simp only [Bool.or_eq_true, Bool.and_eq_true, decide_eq_true_eq, beq_iff_eq]
  omega

theorem isWs_false_iff (c : Char) : isWs c = false ↔ ¬ Blank c := by
  rw [← isWs_iff]; simp

instance (c : Char) : Decidable (Blank c) := by unfold Blank; infer_instance

theorem sameLetters_length : ∀ {cs ls : List Char}, SameLetters cs ls → cs.length = ls.length
  | [], [], _ => rfl
  | [], _ :: _, h => h.elim
  | _ :: _, [], h => h.elim
  | _ :: _, _ :: _, h => by simp [sameLetters_length h.2]

instance (c l : Char) : Decidable (SameLetter c l) := by unfold SameLetter; infer_instance

instance decSameLetters : ∀ cs ls : List Char, Decidable (SameLetters cs ls)
  | [], [] => .isTrue trivial
  | [], _ :: _ => .isFalse id
  | _ :: _, [] => .isFalse id
  | c :: cs, l :: ls =>
    have := decSameLetters cs ls
    inferInstanceAs (Decidable (SameLetter c l ∧ SameLetters cs ls))

instance (word s : String) : Decidable (StartsWith word s) :=
  decidable_of_iff (SameLetters (s.toList.take word.toList.length) word.toList)
    ⟨fun h => ⟨_, s.toList.drop word.toList.length, (List.take_append_drop _ _).symm, h⟩, by
      rintro ⟨f, r, e, h⟩
      rw [e, ← sameLetters_length h, List.take_left']
      · exact h
      · rfl⟩

theorem trimmed_ws {s : String} : Trimmed s ↔
    (∀ c, s.toList.head? = some c → isWs c = false) ∧
    (∀ c, s.toList.getLast? = some c → isWs c = false) := by
  unfold Trimmed
  simp only [isWs_false_iff]

theorem keyWords_iff {k : String} : k ∈ keyWords ↔ k ∈ keywords := by
  have h1 : ∀ k ∈ keyWords, k ∈ keywords := by decide +kernel
  have h2 : ∀ k ∈ keywords, k ∈ keyWords := by decide +kernel
  exact ⟨h1 k, h2 k⟩

theorem least_eq : least = i64Min := by decide
theorem greatest_eq : greatest = i64Max := by decide

theorem inner_eq (n : Node) : inner n = n.nodes := by
  cases n with
  | leaf k m c => cases c <;> rfl
  | branch k m ns => rfl

theorem textOf_eq : textOf = Node.str := by
  funext n
  cases n with
  | leaf k m c =>
    cases c with
    | none => rfl
    | some v => cases v <;> rfl
  | branch k m ns => rfl

theorem flagOf_eq : flagOf = Node.bool := by
  funext n
  cases n with
  | leaf k m c =>
    cases c with
    | none => rfl
    | some v => cases v <;> rfl
  | branch k m ns => rfl

theorem integerOf_eq : integerOf = Node.int := by
  funext n
  cases n with
  | leaf k m c =>
    cases c with
    | none => rfl
    | some v =>
      cases v with
      | number i => cases i <;> rfl
      | _ => rfl
  | branch k m ns => rfl

theorem allTexts_eq : ∀ vs, allTexts vs = Value.toStrs vs
  | [] => rfl
  | v :: vs => by
    have ih := allTexts_eq vs
    unfold allTexts at ih ⊢
    rw [List.mapM_cons, ih, Value.toStrs]
    cases v <;> simp [Value.toStr]
    cases Value.toStrs vs <;> rfl

theorem textsOf_eq : textsOf = Node.varargs := by
  funext n
  cases n with
  | leaf k m c =>
    cases c with
    | none => rfl
    | some v =>
      cases v with
      | list vs => exact allTexts_eq vs
      | _ => rfl
  | branch k m ns => rfl

theorem sameLetter_iff {c l : Char} (hl : 97 ≤ l.toNat ∧ l.toNat ≤ 122) (hk : l ≠ 'k') (hi : l ≠ 'i') :
    SameLetter c l ↔ lower c = [l] := by
  unfold SameLetter lower
  have hA : 'A'.toNat = 65 := rfl
  have hZ : 'Z'.toNat = 90 := rfl
  rw [hA, hZ]
  split
  · next h =>
    constructor
    · rintro (rfl | ⟨_, _, e⟩)
      · omega
      · rw [e]; simp
    · intro e
      injection e with e _
      refine Or.inr ⟨h.1, h.2, ?_⟩
      rw [← e]
      have hv : (c.toNat + 32).isValidChar := Or.inl (by omega)
      unfold Char.ofNat
      rw [dif_pos hv]; rfl
  · next h =>
    split
    · next hc =>
      constructor
      · rintro (rfl | ⟨a, b, _⟩)
        · subst hc; revert hl; decide
        · exact absurd ⟨a, b⟩ h
      · intro e; injection e with e _; exact absurd e.symm hk
    · split
      · next hc =>
        constructor
        · rintro (rfl | ⟨a, b, _⟩)
          · subst hc; revert hl; decide
          · exact absurd ⟨a, b⟩ h
        · intro e; cases e
      · constructor
        · rintro (rfl | ⟨a, b, _⟩)
          · rfl
          · exact absurd ⟨a, b⟩ h
        · intro e; injection e with e _; exact Or.inl e

/-- The letters of "delete" and "update": not `k` or `i`, which other characters have as lower case. -/
def Plain (ls : List Char) : Prop := ∀ l ∈ ls, (97 ≤ l.toNat ∧ l.toNat ≤ 122) ∧ l ≠ 'k' ∧ l ≠ 'i'

theorem sameLetters_toLower : ∀ {cs ls : List Char}, Plain ls → SameLetters cs ls → toLower cs = ls
  | [], [], _, _ => rfl
  | [], _ :: _, _, h => h.elim
  | _ :: _, [], _, h => h.elim
  | c :: cs, l :: ls, hp, h => by
    have h1 := (sameLetter_iff (hp l (by simp)).1 (hp l (by simp)).2.1 (hp l (by simp)).2.2).1 h.1
    have h2 := sameLetters_toLower (fun m hm => hp m (List.mem_cons_of_mem _ hm)) h.2
    unfold toLower at h2 ⊢
    rw [List.flatMap_cons, h1, h2]; rfl

theorem prefix_toLower : ∀ {ls cs : List Char}, Plain ls → ls <+: toLower cs →
    ∃ front rest, cs = front ++ rest ∧ SameLetters front ls
  | [], cs, _, _ => ⟨[], cs, rfl, trivial⟩
  | l :: ls, [], _, h => by simp [toLower] at h
  | l :: ls, c :: cs, hp, h => by
    have hl := hp l (by simp)
    unfold toLower at h
    rw [List.flatMap_cons] at h
    have hc : lower c = [l] := by
      unfold lower at h ⊢
      split
      · next h1 =>
        rw [if_pos h1] at h
        rw [List.singleton_append, List.cons_prefix_cons] at h
        rw [h.1]
      · next h1 =>
        rw [if_neg h1] at h
        split
        · next h2 =>
          rw [if_pos h2] at h
          rw [List.singleton_append, List.cons_prefix_cons] at h
          exact absurd h.1 hl.2.1
        · next h2 =>
          rw [if_neg h2] at h
          split
          · next h3 =>
            rw [if_pos h3] at h
            rw [List.cons_append, List.cons_prefix_cons] at h
            exact absurd h.1 hl.2.2
          · next h3 =>
            rw [if_neg h3] at h
            rw [List.singleton_append, List.cons_prefix_cons] at h
            rw [h.1]
    rw [hc, List.singleton_append, List.cons_prefix_cons] at h
    obtain ⟨f, r, e, hs⟩ := prefix_toLower (fun m hm => hp m (List.mem_cons_of_mem _ hm)) h.2
    exact ⟨c :: f, r, by rw [e]; rfl, (sameLetter_iff hl.1 hl.2.1 hl.2.2).2 hc, hs⟩

theorem startsWith_plain {word s : String} (hp : Plain word.toList) :
    StartsWith word s ↔ word.toList <+: toLower s.toList := by
  constructor
  · rintro ⟨f, r, e, hs⟩
    rw [e]
    unfold toLower
    rw [List.flatMap_append]
    have := sameLetters_toLower hp hs
    unfold toLower at this
    rw [this]
    exact List.prefix_append _ _
  · exact fun h => prefix_toLower hp h

theorem startsWith_delete {s : String} : StartsWith "delete" s ↔ "delete".toList <+: toLower s.toList :=
  startsWith_plain (by unfold Plain; decide)

theorem startsWith_update {s : String} : StartsWith "update" s ↔ "update".toList <+: toLower s.toList :=
  startsWith_plain (by unfold Plain; decide)

end Def
end Podo
