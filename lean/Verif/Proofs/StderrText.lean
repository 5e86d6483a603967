import Verif.Spec.Stderr
/-
The texts of errors tell them apart (C81).
-/
namespace Podo
namespace Prog
open Proj

/-- The first quote in a text is found. -/
theorem to_quote : ∀ {a b x y : List Char}, '"' ∉ a → '"' ∉ b → a ++ '"' :: x = b ++ '"' :: y → a = b ∧ x = y
  | [], [], _, _, _, _, h => by cases h; exact ⟨rfl, rfl⟩
  | [], c :: b, _, _, _, hb, h => by
    injection h with h _
    exact absurd (by rw [h]; simp) hb
  | c :: a, [], _, _, ha, _, h => by
    injection h with h _
    exact absurd (by rw [← h]; simp) ha
  | c :: a, d :: b, _, _, ha, hb, h => by
    injection h with h1 h2
    obtain ⟨h3, h4⟩ := to_quote (fun h => ha (List.mem_cons_of_mem _ h)) (fun h => hb (List.mem_cons_of_mem _ h)) h2
    exact ⟨by rw [h1, h3], h4⟩

/-- The characters of the text of an error. -/
def ownChars : Report → List Char
  | .project (.profileNotFound n) => ['p', 'r', 'o', 'f', 'i', 'l', 'e', ' ', 'n', 'o', 't', ' ', 'f', 'o', 'u', 'n', 'd', ':', ' '] ++ n.toList
  | .project (.projectNotFound _) => ['p', 'r', 'o', 'j', 'e', 'c', 't', ' ', 'n', 'o', 't', ' ', 'f', 'o', 'u', 'n', 'd', ' ', 'i', 'n', ' ', 'd', 'i', 'r', 'e', 'c', 't', 'o', 'r', 'y', ' ', 't', 'r', 'e', 'e', ':', ' ', '/']
  | .history (.branched p a b) => ['v', 'e', 'r', 's', 'i', 'o', 'n', ' ', '\"'] ++ (p.toList ++ '"' :: ([' ', 'h', 'a', 's', ' ', 't', 'w', 'o', ' ', 'n', 'e', 'x', 't', ' ', 'v', 'e', 'r', 's', 'i', 'o', 'n', 's', ':', ' ', '\"'] ++ (a.toList ++ '"' :: ([' ', 'a', 'n', 'd', ' ', '\"'] ++ (b.toList ++ ['"'])))))
  | .history (.unreachable a b) => ['v', 'e', 'r', 's', 'i', 'o', 'n', ' ', '\"'] ++ (a.toList ++ '"' :: ([' ', 'i', 's', ' ', 'n', 'o', 't', ' ', 'r', 'e', 'a', 'c', 'h', 'a', 'b', 'l', 'e', ' ', 'f', 'r', 'o', 'm', ' ', 'v', 'e', 'r', 's', 'i', 'o', 'n', ' ', '\"'] ++ (b.toList ++ ['"'])))
  | .noMatchingVersion v => ['n', 'o', ' ', 'v', 'e', 'r', 's', 'i', 'o', 'n', ' ', 'm', 'a', 't', 'c', 'h', 'i', 'n', 'g', ' ', '\"'] ++ (v.toList ++ '"' :: [' ', 'f', 'o', 'u', 'n', 'd'])
  | .notInitialized => ['d', 'a', 't', 'a', 'b', 'a', 's', 'e', ' ', 'h', 'i', 's', 't', 'o', 'r', 'y', ' ', 'i', 's', ' ', 'n', 'o', 't', ' ', 'i', 'n', 'i', 't', 'i', 'a', 'l', 'i', 'z', 'e', 'd']
  | _ => []

theorem ownChars_text {T : Texts} {se : String} {r : Report} (h : r.Own) :
    (r.text T se).toList = ownChars r := by
  cases r with
  | project e =>
    cases e with
    | config => cases h
    | profileNotFound n =>
      have e : (Report.project (.profileNotFound n)).text T se = "profile not found: " ++ n := rfl
      rw [e, String.toList_append]; rfl
    | projectNotFound d =>
      have hd : d = [] := h
      subst hd
      have e : (Report.project (.projectNotFound [])).text T se =
        "project not found in directory tree: " ++ Path.display [] := rfl
      rw [e, String.toList_append]; decide
  | history e =>
    cases e with
    | branched p a b =>
      have e : (Report.history (.branched p a b)).text T se = "version \"" ++ p ++
        "\" has two next versions: \"" ++ a ++ "\" and \"" ++ b ++ "\"" := rfl
      have e0 : "version \"".toList = ['v', 'e', 'r', 's', 'i', 'o', 'n', ' ', '\"'] := by decide
      have e1 : "\" has two next versions: \"".toList = '"' :: [' ', 'h', 'a', 's', ' ', 't', 'w', 'o', ' ', 'n', 'e', 'x', 't', ' ', 'v', 'e', 'r', 's', 'i', 'o', 'n', 's', ':', ' ', '\"'] := by decide
      have e2 : "\" and \"".toList = '"' :: [' ', 'a', 'n', 'd', ' ', '\"'] := by decide
      have e3 : "\"".toList = ['"'] := by decide
      rw [e]
      simp only [String.toList_append, e0, e1, e2, e3]
      simp only [ownChars, List.append_assoc, List.cons_append, List.nil_append]
    | unreachable a b =>
      have e : (Report.history (.unreachable a b)).text T se = "version \"" ++ a ++
        "\" is not reachable from version \"" ++ b ++ "\"" := rfl
      have e0 : "version \"".toList = ['v', 'e', 'r', 's', 'i', 'o', 'n', ' ', '\"'] := by decide
      have e1 : "\" is not reachable from version \"".toList = '"' :: [' ', 'i', 's', ' ', 'n', 'o', 't', ' ', 'r', 'e', 'a', 'c', 'h', 'a', 'b', 'l', 'e', ' ', 'f', 'r', 'o', 'm', ' ', 'v', 'e', 'r', 's', 'i', 'o', 'n', ' ', '\"'] := by decide
      have e3 : "\"".toList = ['"'] := by decide
      rw [e]
      simp only [String.toList_append, e0, e1, e3]
      simp only [ownChars, List.append_assoc, List.cons_append, List.nil_append]
    | fileSystem => cases h
    | yaml => cases h
  | noMatchingVersion v =>
    have e : (Report.noMatchingVersion v).text T se = "no version matching \"" ++ v ++ "\" found" := rfl
    have e0 : "no version matching \"".toList = ['n', 'o', ' ', 'v', 'e', 'r', 's', 'i', 'o', 'n', ' ', 'm', 'a', 't', 'c', 'h', 'i', 'n', 'g', ' ', '\"'] := by decide
    have e1 : "\" found".toList = '"' :: [' ', 'f', 'o', 'u', 'n', 'd'] := by decide
    rw [e]
    simp only [String.toList_append, e0, e1]
    simp only [ownChars, List.cons_append, List.nil_append]
  | notInitialized =>
    have e : Report.notInitialized.text T se = "database history is not initialized" := rfl
    rw [e]
    decide
  | definitions e => cases h
  | server => cases h

theorem ownChars_inj {r r' : Report} (h : r.Own) (h' : r'.Own) (hq : ∀ n ∈ r.about, '"' ∉ n.toList)
    (hq' : ∀ n ∈ r'.about, '"' ∉ n.toList) (he : ownChars r = ownChars r') : r = r' := by
  have hnil : ∀ {a b : List Char}, '"' ∉ a → '"' ∉ b → a ++ ['"'] = b ++ ['"'] → a = b :=
    fun ha hb h => (to_quote ha hb h).1
  cases r with
  | project e =>
    cases e with
    | config => cases h
    | profileNotFound n =>
      cases r' with
      | project e' =>
        cases e' with
        | config => cases h'
        | profileNotFound m =>
          have := List.append_cancel_left he
          rw [String.toList_inj.1 this]
        | projectNotFound d => simp [ownChars] at he
      | history e' => cases e' <;> first | exact h'.elim | simp [ownChars] at he
      | definitions e' => exact h'.elim
      | server => exact h'.elim
      | noMatchingVersion v => simp [ownChars] at he
      | notInitialized => simp [ownChars] at he
    | projectNotFound d =>
      cases r' with
      | project e' =>
        cases e' with
        | config => cases h'
        | profileNotFound m => simp [ownChars] at he
        | projectNotFound d' =>
          have h1 : d = [] := h
          have h2 : d' = [] := h'
          rw [h1, h2]
      | history e' => cases e' <;> first | exact h'.elim | simp [ownChars] at he
      | definitions e' => exact h'.elim
      | server => exact h'.elim
      | noMatchingVersion v => simp [ownChars] at he
      | notInitialized => simp [ownChars] at he
  | history e =>
    cases e with
    | branched p a b =>
      cases r' with
      | history e' =>
        cases e' with
        | branched p' a' b' =>
          obtain ⟨h1, he⟩ := to_quote (hq p (by simp [Report.about])) (hq' p' (by simp [Report.about]))
            (List.append_cancel_left he)
          obtain ⟨h2, he⟩ := to_quote (hq a (by simp [Report.about])) (hq' a' (by simp [Report.about]))
            (List.append_cancel_left he)
          have h3 := hnil (hq b (by simp [Report.about])) (hq' b' (by simp [Report.about]))
            (List.append_cancel_left he)
          rw [String.toList_inj.1 h1, String.toList_inj.1 h2, String.toList_inj.1 h3]
        | unreachable a' b' =>
          obtain ⟨_, he⟩ := to_quote (hq p (by simp [Report.about])) (hq' a' (by simp [Report.about]))
            (List.append_cancel_left he)
          simp at he
        | fileSystem => exact h'.elim
        | yaml => exact h'.elim
      | project e' => cases e' <;> first | exact h'.elim | simp [ownChars] at he
      | definitions e' => exact h'.elim
      | server => exact h'.elim
      | noMatchingVersion v => simp [ownChars] at he
      | notInitialized => simp [ownChars] at he
    | unreachable a b =>
      cases r' with
      | history e' =>
        cases e' with
        | branched p' a' b' =>
          obtain ⟨_, he⟩ := to_quote (hq a (by simp [Report.about])) (hq' p' (by simp [Report.about]))
            (List.append_cancel_left he)
          simp at he
        | unreachable a' b' =>
          obtain ⟨h1, he⟩ := to_quote (hq a (by simp [Report.about])) (hq' a' (by simp [Report.about]))
            (List.append_cancel_left he)
          have h3 := hnil (hq b (by simp [Report.about])) (hq' b' (by simp [Report.about]))
            (List.append_cancel_left he)
          rw [String.toList_inj.1 h1, String.toList_inj.1 h3]
        | fileSystem => exact h'.elim
        | yaml => exact h'.elim
      | project e' => cases e' <;> first | exact h'.elim | simp [ownChars] at he
      | definitions e' => exact h'.elim
      | server => exact h'.elim
      | noMatchingVersion v => simp [ownChars] at he
      | notInitialized => simp [ownChars] at he
    | fileSystem => exact h.elim
    | yaml => exact h.elim
  | noMatchingVersion v =>
    cases r' with
    | noMatchingVersion v' =>
      have := (to_quote (hq v (by simp [Report.about])) (hq' v' (by simp [Report.about]))
        (List.append_cancel_left he)).1
      rw [String.toList_inj.1 this]
    | project e' => cases e' <;> first | exact h'.elim | simp [ownChars] at he
    | history e' => cases e' <;> first | exact h'.elim | simp [ownChars] at he
    | definitions e' => exact h'.elim
    | server => exact h'.elim
    | notInitialized => simp [ownChars] at he
  | notInitialized =>
    cases r' with
    | notInitialized => rfl
    | project e' => cases e' <;> first | exact h'.elim | simp [ownChars] at he
    | history e' => cases e' <;> first | exact h'.elim | simp [ownChars] at he
    | definitions e' => exact h'.elim
    | server => exact h'.elim
    | noMatchingVersion v' => simp [ownChars] at he
  | definitions e => exact h.elim
  | server => exact h.elim

end Prog
end Podo
