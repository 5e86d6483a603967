import Verif.Spec.Serde
/-
Reading back what was written, and reading in another order.
-/
set_option linter.unusedSimpArgs false
namespace Podo
namespace Serde

theorem readAll_map {α : Type} {f : Doc → Option α} {g : α → Doc} {as : List α}
    (h : ∀ a ∈ as, f (g a) = some a) : readAll f (as.map g) = some as := by
  induction as with
  | nil => rfl
  | cons a as ih =>
    rw [List.map_cons, readAll, h a (by simp), ih fun b hb => h b (by simp [hb])]

theorem list_strs (ss : List String) : list str (strsDoc ss) = some ss := readAll_map fun _ _ => rfl

theorem opt_doc (o : Option String) : opt (optDoc o) = some o := by cases o <;> rfl

theorem column_doc (c : NewColumn) : column (columnDoc c) = some c := by
  unfold column columnDoc
  simp [field, optField, given, str, bool, opt_doc]

theorem list_columns (cs : List NewColumn) : list column (.seq (cs.map columnDoc)) = some cs :=
  readAll_map fun c _ => column_doc c

theorem change_doc (c : Change) (h : FitsInt64 c) : change (changeDoc c) = some c := by
  cases c
  all_goals
    simp only [changeDoc, tagged, change, field, given, str, List.filter_cons, List.filter_nil,
      String.reduceEq, decide_true, decide_false, if_true, if_false, List.map_cons, List.map_nil,
      Bool.false_eq_true]
    simp [changeOf, field, optField, given, str, bool, opt_doc, list_strs, list_columns, int]
  simp only [FitsInt64, List.mem_cons, List.not_mem_nil, or_false, forall_eq_or_imp, forall_eq] at h
  obtain ⟨h1, h2, h3, h4, h5⟩ := h
  rw [if_pos h1, if_pos h2, if_pos h3, if_pos h4, if_pos h5]
  rfl

theorem version_doc (v : Version) (h : ∀ c ∈ v.changes, FitsInt64 c) :
    version (versionDoc v) = some v := by
  have hc : changes (changesDoc v.changes) = some v.changes :=
    readAll_map fun c hc => change_doc c (h c hc)
  unfold version versionDoc
  simp [field, optField, given, str, opt_doc, list_strs, hc]

/-! ### Order -/

/-- A reader that does not look at the order of keys. -/
def Blind {α : Type} (f : Doc → Option α) : Prop := ∀ d d', Reordered d d' → f d = f d'

theorem blind_str : Blind str := by
  intro d d' h
  induction h with
  | refl => rfl
  | perm => rfl
  | entry => rfl
  | element => rfl
  | trans _ _ a b => exact a.trans b

theorem blind_bool : Blind bool := by
  intro d d' h
  induction h with
  | refl => rfl
  | perm => rfl
  | entry => rfl
  | element => rfl
  | trans _ _ a b => exact a.trans b

theorem blind_int : Blind int := by
  intro d d' h
  induction h with
  | refl => rfl
  | perm => rfl
  | entry => rfl
  | element => rfl
  | trans _ _ a b => exact a.trans b

theorem blind_opt : Blind opt := by
  intro d d' h
  induction h with
  | refl => rfl
  | perm => rfl
  | entry => rfl
  | element => rfl
  | trans _ _ a b => exact a.trans b

theorem readAll_swap {α : Type} {f : Doc → Option α} {d d' : Doc} (h : f d = f d') (pre post : List Doc) :
    readAll f (pre ++ d :: post) = readAll f (pre ++ d' :: post) := by
  induction pre with
  | nil => simp only [List.nil_append, readAll, h]
  | cons a as ih => simp only [List.cons_append, readAll, ih]

theorem blind_list {α : Type} {f : Doc → Option α} (hf : Blind f) : Blind (list f) := by
  intro d d' h
  induction h with
  | refl => rfl
  | perm => rfl
  | entry => rfl
  | element b a h _ => exact readAll_swap (hf _ _ h) b a
  | trans _ _ a b => exact a.trans b

theorem given_perm {k : String} {es es' : List (String × Doc)} (h : es.Perm es') :
    (given k es).Perm (given k es') := (h.filter _).map _

theorem given_entry {k j : String} {d : Doc} (b a : List (String × Doc)) :
    given k (b ++ (j, d) :: a) = given k b ++ (if j = k then [d] else []) ++ given k a := by
  unfold given
  rw [List.filter_append, List.filter_cons]
  by_cases h : j = k <;> simp [h]

/-- What a struct makes of the values given for one key. -/
def once {α : Type} (f : Doc → Option α) (m : Option α) : List Doc → Option α
  | [] => m
  | [d] => f d
  | _ => none

theorem field_map {α : Type} (f : Doc → Option α) (k : String) (es : List (String × Doc)) :
    field f k (.map es) = once f none (given k es) := by
  unfold field once
  dsimp only
  cases given k es with
  | nil => rfl
  | cons a l => cases l <;> rfl

theorem optField_map (k : String) (es : List (String × Doc)) :
    optField k (.map es) = once opt (some none) (given k es) := by
  unfold optField once
  dsimp only
  cases given k es with
  | nil => rfl
  | cons a l => cases l <;> rfl

theorem once_perm {α : Type} {f : Doc → Option α} {m : Option α} {l l' : List Doc} (h : l.Perm l') :
    once f m l = once f m l' := by
  have hl := h.length_eq
  match l, l' with
  | [], [] => rfl
  | [a], [b] => rw [List.singleton_perm.1 h |> List.cons.inj |>.1]
  | _ :: _ :: _, _ :: _ :: _ => rfl
  | [], _ :: _ => simp at hl
  | _ :: _, [] => simp at hl
  | [_], _ :: _ :: _ => simp at hl
  | _ :: _ :: _, [_] => simp at hl

theorem once_swap {α : Type} {f : Doc → Option α} {m : Option α} {d d' : Doc} (h : f d = f d')
    (b a : List Doc) : once f m (b ++ [d] ++ a) = once f m (b ++ [d'] ++ a) := by
  match b, a with
  | [], [] => exact h
  | [], _ :: _ => rfl
  | [_], _ => rfl
  | _ :: _ :: _, _ => rfl

theorem blind_field {α : Type} {f : Doc → Option α} (hf : Blind f) (k : String) : Blind (field f k) := by
  intro d d' h
  induction h with
  | refl => rfl
  | perm h => rw [field_map, field_map]; exact once_perm (given_perm h)
  | entry b j a h _ =>
    rw [field_map, field_map, given_entry, given_entry]
    by_cases hj : j = k
    · simp only [hj, if_true]; exact once_swap (hf _ _ h) _ _
    · simp only [hj, if_false]
  | element => rfl
  | trans _ _ a b => exact a.trans b

theorem blind_optField (k : String) : Blind (optField k) := by
  intro d d' h
  induction h with
  | refl => rfl
  | perm h => rw [optField_map, optField_map]; exact once_perm (given_perm h)
  | entry b j a h _ =>
    rw [optField_map, optField_map, given_entry, given_entry]
    by_cases hj : j = k
    · simp only [hj, if_true]; exact once_swap (blind_opt _ _ h) _ _
    · simp only [hj, if_false]
  | element => rfl
  | trans _ _ a b => exact a.trans b

theorem blind_column : Blind column := by
  intro d d' h
  unfold column
  rw [blind_field blind_str _ _ _ h, blind_field blind_str _ _ _ h, blind_field blind_bool _ _ _ h,
    blind_optField _ _ _ h]

theorem blind_changeOf (tag : String) : Blind (changeOf tag) := by
  intro d d' h
  have h1 := fun k => blind_field blind_str k _ _ h
  have h2 := fun k => blind_field blind_bool k _ _ h
  have h3 := fun k => blind_field blind_int k _ _ h
  have h4 := fun k => blind_field (blind_list blind_str) k _ _ h
  have h5 := fun k => blind_field (blind_list blind_column) k _ _ h
  have h6 := fun k => blind_optField k _ _ h
  unfold changeOf
  simp only [h1, h2, h3, h4, h5, h6]

theorem blind_change : Blind change := by
  intro d d' h
  unfold change
  rw [blind_field blind_str _ _ _ h]
  cases field str "type" d' with
  | none => rfl
  | some tag => exact blind_field (blind_changeOf tag) _ _ _ h

theorem blind_version : Blind version := by
  intro d d' h
  have h1 := fun k => blind_field blind_str k _ _ h
  have h4 := fun k => blind_field (blind_list blind_str) k _ _ h
  have h5 := fun k => blind_field (blind_list blind_change) k _ _ h
  have h6 := fun k => blind_optField k _ _ h
  unfold version changes
  simp only [h1, h4, h5, h6]

end Serde
end Podo
