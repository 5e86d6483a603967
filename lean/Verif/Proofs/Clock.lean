import Verif.Spec.Life
/-
Lemmas for C91 and C92 about the local time in the names of versions.
-/
namespace Podo

theorem lastDigit_lt (a b : Nat) : lastDigit a < lastDigit b ↔ a % 10 < b % 10 := by
  have key : ∀ x y : Fin 10, Char.ofNat (48 + x) < Char.ofNat (48 + y) ↔ x < y := by decide
  exact key ⟨a % 10, Nat.mod_lt _ (by omega)⟩ ⟨b % 10, Nat.mod_lt _ (by omega)⟩

theorem lastDigit_inj (a b : Nat) : lastDigit a = lastDigit b ↔ a % 10 = b % 10 := by
  have key : ∀ x y : Fin 10, Char.ofNat (48 + x) = Char.ofNat (48 + y) ↔ x.val = y.val := by decide
  exact key ⟨a % 10, Nat.mod_lt _ (by omega)⟩ ⟨b % 10, Nat.mod_lt _ (by omega)⟩

theorem twoDigits_lt (a b : Nat) : twoDigits a < twoDigits b ↔ a % 100 < b % 100 := by
  unfold twoDigits
  rw [List.cons_lt_cons_iff, List.cons_lt_cons_iff, lastDigit_lt, lastDigit_inj, lastDigit_lt]
  simp only [List.lt_irrefl, and_false, or_false]
  omega

theorem twoDigits_inj (a b : Nat) : twoDigits a = twoDigits b ↔ a % 100 = b % 100 := by
  unfold twoDigits
  simp only [List.cons.injEq, lastDigit_inj, and_true]
  omega

/-- Comparing texts that begin with texts of the same length. -/
theorem append_lt_append {a b x y : List Char} (h : a.length = b.length) :
    a ++ x < b ++ y ↔ a < b ∨ a = b ∧ x < y := by
  induction a generalizing b with
  | nil =>
    cases b with
    | nil => simp
    | cons _ _ => cases h
  | cons c a ih =>
    cases b with
    | nil => cases h
    | cons e b =>
      simp only [List.length_cons, Nat.add_right_cancel_iff] at h
      rw [List.cons_append, List.cons_append, List.cons_lt_cons_iff, List.cons_lt_cons_iff, ih h,
        List.cons.injEq]
      constructor
      · rintro (h | ⟨h, h' | ⟨h', h''⟩⟩)
        · exact .inl (.inl h)
        · exact .inl (.inr ⟨h, h'⟩)
        · exact .inr ⟨⟨h, h'⟩, h''⟩
      · rintro ((h | ⟨h, h'⟩) | ⟨⟨h, h'⟩, h''⟩)
        · exact .inl h
        · exact .inr ⟨h, .inl h'⟩
        · exact .inr ⟨h, .inr ⟨h', h''⟩⟩

theorem LocalTime.chars_length (t : LocalTime) : t.chars.length = 15 := rfl

theorem two_lt (a b : Nat) {x y : List Char} :
    twoDigits a ++ x < twoDigits b ++ y ↔ a % 100 < b % 100 ∨ a % 100 = b % 100 ∧ x < y := by
  rw [append_lt_append (a := twoDigits a) (b := twoDigits b) rfl, twoDigits_lt, twoDigits_inj]

/-- The texts of times are in the order of the times. -/
theorem LocalTime.chars_lt (t u : LocalTime) : t.chars < u.chars ↔ t.Before u := by
  unfold LocalTime.chars LocalTime.Before
  rw [two_lt, two_lt, two_lt, two_lt, append_lt_append rfl, two_lt, two_lt, twoDigits_lt]
  simp only [List.lt_irrefl, true_and, false_or, Fin.lt_def, Fin.ext_iff]
  obtain ⟨⟨y, hy⟩, ⟨m, hm⟩, ⟨d, hd⟩, ⟨h, hh⟩, ⟨i, hi⟩, ⟨s, hs⟩⟩ := t
  obtain ⟨⟨y', hy'⟩, ⟨m', hm'⟩, ⟨d', hd'⟩, ⟨h', hh'⟩, ⟨i', hi'⟩, ⟨s', hs'⟩⟩ := u
  dsimp only
  rw [Nat.mod_eq_of_lt hm, Nat.mod_eq_of_lt hm', Nat.mod_eq_of_lt hd, Nat.mod_eq_of_lt hd', Nat.mod_eq_of_lt hh,
    Nat.mod_eq_of_lt hh', Nat.mod_eq_of_lt hi, Nat.mod_eq_of_lt hi', Nat.mod_eq_of_lt hs, Nat.mod_eq_of_lt hs']
  omega

/-- The text of a time tells the time. -/
theorem LocalTime.chars_inj {t u : LocalTime} (h : t.chars = u.chars) : t = u := by
  obtain ⟨⟨y, hy⟩, ⟨m, hm⟩, ⟨d, hd⟩, ⟨h, hh⟩, ⟨i, hi⟩, ⟨s, hs⟩⟩ := t
  obtain ⟨⟨y', hy'⟩, ⟨m', hm'⟩, ⟨d', hd'⟩, ⟨h', hh'⟩, ⟨i', hi'⟩, ⟨s', hs'⟩⟩ := u
  simp only [LocalTime.chars, twoDigits, List.cons_append, List.nil_append, List.cons.injEq, lastDigit_inj,
    and_true, true_and] at h
  simp only [LocalTime.mk.injEq, Fin.mk.injEq]
  omega

theorem LocalTime.text_toList (t : LocalTime) : t.text.toList = t.chars := by
  unfold LocalTime.text; simp

theorem LocalTime.Before.irrefl (t : LocalTime) : ¬ t.Before t := by
  rw [← LocalTime.chars_lt]; exact List.lt_irrefl _

namespace Prog

/-- The name `make` gives at a time, with a label. -/
def nameOf (m : LocalTime × String) : String := m.1.text ++ "-" ++ m.2

theorem nameOf_toList (m : LocalTime × String) : (nameOf m).toList = m.1.chars ++ ('-' :: m.2.toList) := by
  unfold nameOf
  simp [LocalTime.text_toList]

theorem nameOf_made (t : LocalTime) (label : Option String) : madeName t.text label = nameOf (t, label.getD "auto") :=
  rfl

theorem nameOf_inj {m m' : LocalTime × String} (h : nameOf m = nameOf m') : m = m' := by
  have h := congrArg String.toList h
  rw [nameOf_toList, nameOf_toList] at h
  obtain ⟨h1, h2⟩ := List.append_inj h rfl
  obtain ⟨t, l⟩ := m
  obtain ⟨t', l'⟩ := m'
  have e := LocalTime.chars_inj h1
  simp only [List.cons.injEq, true_and] at h2
  dsimp only at e
  rw [e, String.toList_inj.1 h2]

theorem nameOf_long {m : LocalTime × String} {n : String} (h : n.toList.length < 16) : nameOf m ≠ n := by
  rintro rfl
  rw [nameOf_toList, List.length_append, LocalTime.chars_length] at h
  simp only [List.length_cons] at h
  omega

theorem nameOf_lt {m m' : LocalTime × String} (h : m.1.Before m'.1) : (nameOf m).toList < (nameOf m').toList := by
  rw [nameOf_toList, nameOf_toList, append_lt_append (a := m.1.chars) (b := m'.1.chars) rfl]
  exact .inl ((LocalTime.chars_lt _ _).2 h)

end Prog
end Podo
