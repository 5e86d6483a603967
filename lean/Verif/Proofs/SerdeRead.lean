import Verif.Proofs.Serde
import Verif.Spec.Serde
/-
Exactly which files are read as which versions (C54).
-/
namespace Podo
namespace Serde

theorem given_only {gs : List (String × Doc)} {k : String} {d : Doc} : given k gs = [d] ↔ Only gs k d := by
  unfold given Only
  constructor
  · intro h
    obtain ⟨⟨k', d'⟩, hl, hd⟩ : ∃ e, (gs.filter fun e => e.1 = k) = [e] ∧ e.2 = d := by
      cases hf : gs.filter fun e => e.1 = k with
      | nil => rw [hf] at h; cases h
      | cons e l =>
        rw [hf] at h
        cases l with
        | nil => simp at h; exact ⟨e, rfl, h⟩
        | cons e' l => cases h
    obtain ⟨l₁, l₂, rfl, h1, hk, h2⟩ := List.filter_eq_cons_iff.1 hl
    cases hd
    have hk : k' = k := by simpa using hk
    cases hk
    refine ⟨l₁, l₂, rfl, ?_⟩
    intro e he
    rcases List.mem_append.1 he with he | he
    · simpa using h1 e he
    · rw [List.filter_eq_nil_iff] at h2
      simpa using h2 e he
  · rintro ⟨l₁, l₂, rfl, h⟩
    have e1 : (l₁.filter fun e => e.1 = k) = [] :=
      List.filter_eq_nil_iff.2 fun e he => by simpa using h e (List.mem_append_left _ he)
    have e2 : (l₂.filter fun e => e.1 = k) = [] :=
      List.filter_eq_nil_iff.2 fun e he => by simpa using h e (List.mem_append_right _ he)
    simp [List.filter_append, e1, e2]

theorem given_none {gs : List (String × Doc)} {k : String} : given k gs = [] ↔ ∀ e ∈ gs, e.1 ≠ k := by
  unfold given
  rw [List.map_eq_nil_iff, List.filter_eq_nil_iff]
  simp

theorem has_map {d : Doc} {es : List (String × Doc)} (h : Has d (.map es)) : ∃ gs, d = .map gs := by
  cases h <;> exact ⟨_, rfl⟩

theorem has_nil {d : Doc} : Has d (.map []) ↔ ∃ gs, d = .map gs :=
  ⟨has_map, fun ⟨gs, h⟩ => h ▸ .empty gs⟩

/-- An entry is read as what it was written for. -/
theorem has_field {α : Type} {f : Doc → Option α} {a : α} {e : Doc} (hf : ∀ d, f d = some a ↔ Has d e)
    (hn : e ≠ .null) {k : String} {d : Doc} {es : List (String × Doc)} :
    Has d (.map ((k, e) :: es)) ↔ field f k d = some a ∧ Has d (.map es) := by
  constructor
  · intro h
    cases h with
    | entry h1 h2 h3 =>
      refine ⟨?_, h3⟩
      unfold field
      dsimp only
      rw [given_only.2 h1]
      exact (hf _).2 h2
    | missing => exact absurd rfl hn
  · rintro ⟨h1, h2⟩
    obtain ⟨gs, rfl⟩ := has_map h2
    unfold field at h1
    dsimp only at h1
    cases hg : given k gs with
    | nil => rw [hg] at h1; cases h1
    | cons x l =>
      rw [hg] at h1
      cases l with
      | cons y l => cases h1
      | nil => exact .entry (given_only.1 hg) ((hf x).1 h1) h2

theorem has_optField {a : Option String} {k : String} {d : Doc} {es : List (String × Doc)} :
    Has d (.map ((k, optDoc a) :: es)) ↔ optField k d = some a ∧ Has d (.map es) := by
  have hf : ∀ x, opt x = some a ↔ Has x (optDoc a) := by
    intro x
    cases a with
    | none =>
      constructor
      · intro h; cases x <;> simp [opt] at h; exact .null
      · intro h; cases h; rfl
    | some s =>
      constructor
      · intro h; cases x <;> simp [opt] at h; subst h; exact .str _
      · intro h; cases h; rfl
  constructor
  · intro h
    have h0 : ∃ gs, d = .map gs := has_map h
    obtain ⟨gs, rfl⟩ := h0
    generalize hx : optDoc a = x at h
    cases h with
    | entry h1 h2 h3 =>
      subst hx
      refine ⟨?_, h3⟩
      unfold optField
      dsimp only
      rw [given_only.2 h1]
      exact (hf _).2 h2
    | missing h1 h3 =>
      cases a with
      | some s => cases hx
      | none =>
        refine ⟨?_, h3⟩
        unfold optField
        dsimp only
        rw [given_none.2 h1]
  · rintro ⟨h1, h2⟩
    obtain ⟨gs, rfl⟩ := has_map h2
    unfold optField at h1
    dsimp only at h1
    cases hg : given k gs with
    | nil =>
      rw [hg] at h1
      injection h1 with h1
      subst h1
      exact .missing (given_none.1 hg) h2
    | cons x l =>
      rw [hg] at h1
      cases l with
      | cons y l => cases h1
      | nil => exact .entry (given_only.1 hg) ((hf x).1 h1) h2

theorem str_iff {d : Doc} {s : String} : str d = some s ↔ Has d (.str s) := by
  constructor
  · intro h; cases d <;> simp [str] at h; subst h; exact .str _
  · intro h; cases h; rfl

theorem bool_iff {d : Doc} {b : Bool} : bool d = some b ↔ Has d (.bool b) := by
  constructor
  · intro h; cases d <;> simp [bool] at h; subst h; exact .bool _
  · intro h; cases h; rfl

theorem int_iff {d : Doc} {i : Int} (hi : -9223372036854775808 ≤ i ∧ i ≤ 9223372036854775807) :
    int d = some i ↔ Has d (.int i) := by
  constructor
  · intro h; cases d <;> simp [int] at h; obtain ⟨_, rfl⟩ := h; exact .int _
  · intro h; cases h; simp [int, hi]

theorem readAll_iff {α : Type} {f : Doc → Option α} {enc : α → Doc} : ∀ {as : List α} {ds : List Doc},
    (∀ a ∈ as, ∀ d, f d = some a ↔ Has d (enc a)) → (readAll f ds = some as ↔ Has (.seq ds) (.seq (as.map enc)))
  | [], [], _ => by simp [readAll]; exact .nil
  | [], d :: ds, _ => by
    constructor
    · intro h
      unfold readAll at h
      split at h <;> cases h
    · intro h; cases h
  | a :: as, [], _ => by
    constructor
    · intro h; cases h
    · intro h; cases h
  | a :: as, d :: ds, hf => by
    have ih := readAll_iff (ds := ds) fun x hx => hf x (List.mem_cons_of_mem _ hx)
    constructor
    · intro h
      unfold readAll at h
      split at h
      · next x xs h1 h2 =>
        cases h
        exact .cons ((hf a (by simp) d).1 h1) (ih.1 h2)
      · cases h
    · intro h
      cases h with
      | cons h1 h2 =>
        unfold readAll
        rw [(hf a (by simp) d).2 h1, ih.2 h2]

theorem list_iff {α : Type} {f : Doc → Option α} {enc : α → Doc} {as : List α} {d : Doc}
    (hf : ∀ a ∈ as, ∀ d, f d = some a ↔ Has d (enc a)) : list f d = some as ↔ Has d (.seq (as.map enc)) := by
  unfold list
  constructor
  · intro h
    split at h
    · exact (readAll_iff hf).1 h
    · cases h
  · intro h
    cases d with
    | seq ds => exact (readAll_iff hf).2 h
    | _ => generalize as.map enc = l at h; cases h

theorem has_str {k s : String} {d : Doc} {es : List (String × Doc)} :
    Has d (.map ((k, .str s) :: es)) ↔ field str k d = some s ∧ Has d (.map es) :=
  has_field (fun _ => str_iff) (by simp)

theorem has_bool {k : String} {b : Bool} {d : Doc} {es : List (String × Doc)} :
    Has d (.map ((k, .bool b) :: es)) ↔ field bool k d = some b ∧ Has d (.map es) :=
  has_field (fun _ => bool_iff) (by simp)

theorem has_int {k : String} {i : Int} (hi : -9223372036854775808 ≤ i ∧ i ≤ 9223372036854775807) {d : Doc}
    {es : List (String × Doc)} :
    Has d (.map ((k, .int i) :: es)) ↔ field int k d = some i ∧ Has d (.map es) :=
  has_field (fun _ => int_iff hi) (by simp)

theorem has_strs {k : String} {ss : List String} {d : Doc} {es : List (String × Doc)} :
    Has d (.map ((k, strsDoc ss) :: es)) ↔ field (list str) k d = some ss ∧ Has d (.map es) :=
  has_field (fun _ => list_iff fun _ _ _ => str_iff) (by simp [strsDoc])

theorem field_has {α : Type} {f : Doc → Option α} {k : String} {d : Doc} {a : α} (h : field f k d = some a) :
    Has d (.map []) := by
  unfold field at h
  split at h
  · exact .empty _
  · cases h

theorem column_iff {d : Doc} {c : NewColumn} : column d = some c ↔ Has d (columnDoc c) := by
  unfold columnDoc
  rw [has_str, has_str, has_bool, has_optField]
  constructor
  · intro h
    unfold column at h
    obtain ⟨_, h1, h⟩ := Option.bind_eq_some_iff.1 h
    obtain ⟨_, h2, h⟩ := Option.bind_eq_some_iff.1 h
    obtain ⟨_, h3, h⟩ := Option.bind_eq_some_iff.1 h
    obtain ⟨_, h4, h⟩ := Option.bind_eq_some_iff.1 h
    cases h
    exact ⟨h1, h2, h3, h4, field_has h1⟩
  · rintro ⟨h1, h2, h3, h4, _⟩
    simp [column, h1, h2, h3, h4]

theorem has_columns {k : String} {cs : List NewColumn} {d : Doc} {es : List (String × Doc)} :
    Has d (.map ((k, .seq (cs.map columnDoc)) :: es)) ↔ field (list column) k d = some cs ∧ Has d (.map es) :=
  has_field (fun _ => list_iff fun _ _ _ => column_iff) (by simp)

/-- The name under which a change is kept. -/
def tagOf : Change → String
  | .addCheck _ _ _ _ _ _ => "AddCheckChange"
  | .addColumn _ _ _ _ _ _ => "AddColumnChange"
  | .addForeignKey _ _ _ _ _ _ _ _ _ _ _ _ => "AddForeignKeyChange"
  | .addPrimaryKey _ _ _ _ _ _ => "AddPrimaryKeyChange"
  | .addUnique _ _ _ _ _ _ => "AddUniqueChange"
  | .alterCheck _ _ _ _ _ => "AlterCheckChange"
  | .setDataType _ _ _ _ => "AlterColumnSetDataTypeChange"
  | .setDefault _ _ _ _ => "AlterColumnSetDefaultChange"
  | .setNotNull _ _ _ _ => "AlterColumnSetNotNullChange"
  | .alterForeignKey _ _ _ _ _ => "AlterForeignKeyChange"
  | .alterPrimaryKey _ _ _ _ _ => "AlterPrimaryKeyChange"
  | .alterUnique _ _ _ _ _ => "AlterUniqueChange"
  | .createFunction _ _ _ _ _ _ => "CreateFunctionChange"
  | .createIndex _ _ _ _ _ _ => "CreateIndexChange"
  | .createSchema _ => "CreateSchemaChange"
  | .createSequence _ _ _ _ _ _ _ _ _ => "CreateSequenceChange"
  | .createTable _ _ _ => "CreateTableChange"
  | .createView _ _ _ => "CreateViewChange"
  | .dropCheck _ _ _ => "DropCheckChange"
  | .dropColumn _ _ _ => "DropColumnChange"
  | .dropForeignKey _ _ _ => "DropForeignKeyChange"
  | .dropFunction _ _ => "DropFunctionChange"
  | .dropIndex _ _ => "DropIndexChange"
  | .dropPrimaryKey _ _ _ => "DropPrimaryKeyChange"
  | .dropSchema _ => "DropSchemaChange"
  | .dropSequence _ _ => "DropSequenceChange"
  | .dropTable _ _ => "DropTableChange"
  | .dropUnique _ _ _ => "DropUniqueChange"
  | .dropView _ _ => "DropViewChange"
  | .renameColumn _ _ _ _ => "RenameColumnChange"

/-- The fields of a change, as they are kept. -/
def fieldsOf (c : Change) : List (String × Doc) :=
  match changeDoc c with
  | .map [_, (_, .map es)] => es
  | _ => []

theorem changeDoc_eq (c : Change) : changeDoc c = tagged (tagOf c) (fieldsOf c) := by
  cases c <;> rfl

/-- What comes out, if anything, is a change of this sort. -/
def SortIs (t : String) (x : Option Change) : Prop := ∀ c, x = some c → t = tagOf c

theorem sort_some {t : String} {c : Change} (h : t = tagOf c) : SortIs t (some c) := by
  intro _ he; cases he; exact h

theorem sort_bind {α : Type} {t : String} {x : Option α} {f : α → Option Change} (h : ∀ a, SortIs t (f a)) :
    SortIs t (x >>= f) := by
  intro c he
  obtain ⟨a, _, h'⟩ := Option.bind_eq_some_iff.1 he
  exact h a c h'

theorem sort_none {t : String} : SortIs t none := by intro _ h; cases h

theorem sort_if {t u : String} {x y : Option Change} (hx : SortIs u x) (hy : SortIs t y) :
    SortIs t (if t = u then x else y) := by
  by_cases h : t = u
  · subst h; rw [if_pos rfl]; exact hx
  · rw [if_neg h]; exact hy

theorem changeOf_sort (t : String) (d : Doc) : SortIs t (changeOf t d) := by
  unfold changeOf
  repeat' first
    | exact sort_none
    | exact sort_some rfl
    | refine sort_if ?_ ?_
    | refine sort_bind fun _ => ?_

theorem int_range {k : String} {d : Doc} {i : Int} (h : field int k d = some i) :
    -9223372036854775808 ≤ i ∧ i ≤ 9223372036854775807 := by
  unfold field at h
  split at h
  · split at h
    · next x _ =>
      cases x <;> simp [int] at h
      obtain ⟨h, rfl⟩ := h
      exact h
    · cases h
  · cases h

theorem read_addCheck {d : Doc} {x1 x2 x3 x4 x5 x6} :
    changeOf "AddCheckChange" d = some (.addCheck x1 x2 x3 x4 x5 x6) ↔ Has d (.map (fieldsOf (.addCheck x1 x2 x3 x4 x5 x6))) := by
  simp only [changeOf, fieldsOf, changeDoc, tagged, reduceCtorEq, if_false, if_true, String.reduceEq, ↓reduceIte]
  rw [has_str, has_str, has_str, has_str, has_bool, has_bool, has_nil]
  constructor
  · intro h
    obtain ⟨_, h1, h⟩ := Option.bind_eq_some_iff.1 h
    obtain ⟨_, h2, h⟩ := Option.bind_eq_some_iff.1 h
    obtain ⟨_, h3, h⟩ := Option.bind_eq_some_iff.1 h
    obtain ⟨_, h4, h⟩ := Option.bind_eq_some_iff.1 h
    obtain ⟨_, h5, h⟩ := Option.bind_eq_some_iff.1 h
    obtain ⟨_, h6, h⟩ := Option.bind_eq_some_iff.1 h
    cases h
    exact ⟨h1, h2, h3, h4, h5, h6, has_nil.1 (field_has h1)⟩
  · rintro ⟨h1, h2, h3, h4, h5, h6, _⟩
    simp [h1, h2, h3, h4, h5, h6]

theorem read_addColumn {d : Doc} {x1 x2 x3 x4 x5 x6} :
    changeOf "AddColumnChange" d = some (.addColumn x1 x2 x3 x4 x5 x6) ↔ Has d (.map (fieldsOf (.addColumn x1 x2 x3 x4 x5 x6))) := by
  simp only [changeOf, fieldsOf, changeDoc, tagged, reduceCtorEq, if_false, if_true, String.reduceEq, ↓reduceIte]
  rw [has_str, has_str, has_str, has_str, has_bool, has_optField, has_nil]
  constructor
  · intro h
    obtain ⟨_, h1, h⟩ := Option.bind_eq_some_iff.1 h
    obtain ⟨_, h2, h⟩ := Option.bind_eq_some_iff.1 h
    obtain ⟨_, h3, h⟩ := Option.bind_eq_some_iff.1 h
    obtain ⟨_, h4, h⟩ := Option.bind_eq_some_iff.1 h
    obtain ⟨_, h5, h⟩ := Option.bind_eq_some_iff.1 h
    obtain ⟨_, h6, h⟩ := Option.bind_eq_some_iff.1 h
    cases h
    exact ⟨h1, h2, h3, h4, h5, h6, has_nil.1 (field_has h1)⟩
  · rintro ⟨h1, h2, h3, h4, h5, h6, _⟩
    simp [h1, h2, h3, h4, h5, h6]

theorem read_addForeignKey {d : Doc} {x1 x2 x3 x4 x5 x6 x7 x8 x9 x10 x11 x12} :
    changeOf "AddForeignKeyChange" d = some (.addForeignKey x1 x2 x3 x4 x5 x6 x7 x8 x9 x10 x11 x12) ↔ Has d (.map (fieldsOf (.addForeignKey x1 x2 x3 x4 x5 x6 x7 x8 x9 x10 x11 x12))) := by
  simp only [changeOf, fieldsOf, changeDoc, tagged, reduceCtorEq, if_false, if_true, String.reduceEq, ↓reduceIte]
  rw [has_str, has_str, has_str, has_strs, has_str, has_str, has_strs, has_str, has_str, has_str, has_bool, has_bool, has_nil]
  constructor
  · intro h
    obtain ⟨_, h1, h⟩ := Option.bind_eq_some_iff.1 h
    obtain ⟨_, h2, h⟩ := Option.bind_eq_some_iff.1 h
    obtain ⟨_, h3, h⟩ := Option.bind_eq_some_iff.1 h
    obtain ⟨_, h4, h⟩ := Option.bind_eq_some_iff.1 h
    obtain ⟨_, h5, h⟩ := Option.bind_eq_some_iff.1 h
    obtain ⟨_, h6, h⟩ := Option.bind_eq_some_iff.1 h
    obtain ⟨_, h7, h⟩ := Option.bind_eq_some_iff.1 h
    obtain ⟨_, h8, h⟩ := Option.bind_eq_some_iff.1 h
    obtain ⟨_, h9, h⟩ := Option.bind_eq_some_iff.1 h
    obtain ⟨_, h10, h⟩ := Option.bind_eq_some_iff.1 h
    obtain ⟨_, h11, h⟩ := Option.bind_eq_some_iff.1 h
    obtain ⟨_, h12, h⟩ := Option.bind_eq_some_iff.1 h
    cases h
    exact ⟨h1, h2, h3, h4, h5, h6, h7, h8, h9, h10, h11, h12, has_nil.1 (field_has h1)⟩
  · rintro ⟨h1, h2, h3, h4, h5, h6, h7, h8, h9, h10, h11, h12, _⟩
    simp [h1, h2, h3, h4, h5, h6, h7, h8, h9, h10, h11, h12]

theorem read_addPrimaryKey {d : Doc} {x1 x2 x3 x4 x5 x6} :
    changeOf "AddPrimaryKeyChange" d = some (.addPrimaryKey x1 x2 x3 x4 x5 x6) ↔ Has d (.map (fieldsOf (.addPrimaryKey x1 x2 x3 x4 x5 x6))) := by
  simp only [changeOf, fieldsOf, changeDoc, tagged, reduceCtorEq, if_false, if_true, String.reduceEq, ↓reduceIte]
  rw [has_str, has_str, has_str, has_strs, has_bool, has_bool, has_nil]
  constructor
  · intro h
    obtain ⟨_, h1, h⟩ := Option.bind_eq_some_iff.1 h
    obtain ⟨_, h2, h⟩ := Option.bind_eq_some_iff.1 h
    obtain ⟨_, h3, h⟩ := Option.bind_eq_some_iff.1 h
    obtain ⟨_, h4, h⟩ := Option.bind_eq_some_iff.1 h
    obtain ⟨_, h5, h⟩ := Option.bind_eq_some_iff.1 h
    obtain ⟨_, h6, h⟩ := Option.bind_eq_some_iff.1 h
    cases h
    exact ⟨h1, h2, h3, h4, h5, h6, has_nil.1 (field_has h1)⟩
  · rintro ⟨h1, h2, h3, h4, h5, h6, _⟩
    simp [h1, h2, h3, h4, h5, h6]

theorem read_addUnique {d : Doc} {x1 x2 x3 x4 x5 x6} :
    changeOf "AddUniqueChange" d = some (.addUnique x1 x2 x3 x4 x5 x6) ↔ Has d (.map (fieldsOf (.addUnique x1 x2 x3 x4 x5 x6))) := by
  simp only [changeOf, fieldsOf, changeDoc, tagged, reduceCtorEq, if_false, if_true, String.reduceEq, ↓reduceIte]
  rw [has_str, has_str, has_str, has_strs, has_bool, has_bool, has_nil]
  constructor
  · intro h
    obtain ⟨_, h1, h⟩ := Option.bind_eq_some_iff.1 h
    obtain ⟨_, h2, h⟩ := Option.bind_eq_some_iff.1 h
    obtain ⟨_, h3, h⟩ := Option.bind_eq_some_iff.1 h
    obtain ⟨_, h4, h⟩ := Option.bind_eq_some_iff.1 h
    obtain ⟨_, h5, h⟩ := Option.bind_eq_some_iff.1 h
    obtain ⟨_, h6, h⟩ := Option.bind_eq_some_iff.1 h
    cases h
    exact ⟨h1, h2, h3, h4, h5, h6, has_nil.1 (field_has h1)⟩
  · rintro ⟨h1, h2, h3, h4, h5, h6, _⟩
    simp [h1, h2, h3, h4, h5, h6]

theorem read_alterCheck {d : Doc} {x1 x2 x3 x4 x5} :
    changeOf "AlterCheckChange" d = some (.alterCheck x1 x2 x3 x4 x5) ↔ Has d (.map (fieldsOf (.alterCheck x1 x2 x3 x4 x5))) := by
  simp only [changeOf, fieldsOf, changeDoc, tagged, reduceCtorEq, if_false, if_true, String.reduceEq, ↓reduceIte]
  rw [has_str, has_str, has_str, has_bool, has_bool, has_nil]
  constructor
  · intro h
    obtain ⟨_, h1, h⟩ := Option.bind_eq_some_iff.1 h
    obtain ⟨_, h2, h⟩ := Option.bind_eq_some_iff.1 h
    obtain ⟨_, h3, h⟩ := Option.bind_eq_some_iff.1 h
    obtain ⟨_, h4, h⟩ := Option.bind_eq_some_iff.1 h
    obtain ⟨_, h5, h⟩ := Option.bind_eq_some_iff.1 h
    cases h
    exact ⟨h1, h2, h3, h4, h5, has_nil.1 (field_has h1)⟩
  · rintro ⟨h1, h2, h3, h4, h5, _⟩
    simp [h1, h2, h3, h4, h5]

theorem read_setDataType {d : Doc} {x1 x2 x3 x4} :
    changeOf "AlterColumnSetDataTypeChange" d = some (.setDataType x1 x2 x3 x4) ↔ Has d (.map (fieldsOf (.setDataType x1 x2 x3 x4))) := by
  simp only [changeOf, fieldsOf, changeDoc, tagged, reduceCtorEq, if_false, if_true, String.reduceEq, ↓reduceIte]
  rw [has_str, has_str, has_str, has_str, has_nil]
  constructor
  · intro h
    obtain ⟨_, h1, h⟩ := Option.bind_eq_some_iff.1 h
    obtain ⟨_, h2, h⟩ := Option.bind_eq_some_iff.1 h
    obtain ⟨_, h3, h⟩ := Option.bind_eq_some_iff.1 h
    obtain ⟨_, h4, h⟩ := Option.bind_eq_some_iff.1 h
    cases h
    exact ⟨h1, h2, h3, h4, has_nil.1 (field_has h1)⟩
  · rintro ⟨h1, h2, h3, h4, _⟩
    simp [h1, h2, h3, h4]

theorem read_setDefault {d : Doc} {x1 x2 x3 x4} :
    changeOf "AlterColumnSetDefaultChange" d = some (.setDefault x1 x2 x3 x4) ↔ Has d (.map (fieldsOf (.setDefault x1 x2 x3 x4))) := by
  simp only [changeOf, fieldsOf, changeDoc, tagged, reduceCtorEq, if_false, if_true, String.reduceEq, ↓reduceIte]
  rw [has_str, has_str, has_str, has_optField, has_nil]
  constructor
  · intro h
    obtain ⟨_, h1, h⟩ := Option.bind_eq_some_iff.1 h
    obtain ⟨_, h2, h⟩ := Option.bind_eq_some_iff.1 h
    obtain ⟨_, h3, h⟩ := Option.bind_eq_some_iff.1 h
    obtain ⟨_, h4, h⟩ := Option.bind_eq_some_iff.1 h
    cases h
    exact ⟨h1, h2, h3, h4, has_nil.1 (field_has h1)⟩
  · rintro ⟨h1, h2, h3, h4, _⟩
    simp [h1, h2, h3, h4]

theorem read_setNotNull {d : Doc} {x1 x2 x3 x4} :
    changeOf "AlterColumnSetNotNullChange" d = some (.setNotNull x1 x2 x3 x4) ↔ Has d (.map (fieldsOf (.setNotNull x1 x2 x3 x4))) := by
  simp only [changeOf, fieldsOf, changeDoc, tagged, reduceCtorEq, if_false, if_true, String.reduceEq, ↓reduceIte]
  rw [has_str, has_str, has_str, has_bool, has_nil]
  constructor
  · intro h
    obtain ⟨_, h1, h⟩ := Option.bind_eq_some_iff.1 h
    obtain ⟨_, h2, h⟩ := Option.bind_eq_some_iff.1 h
    obtain ⟨_, h3, h⟩ := Option.bind_eq_some_iff.1 h
    obtain ⟨_, h4, h⟩ := Option.bind_eq_some_iff.1 h
    cases h
    exact ⟨h1, h2, h3, h4, has_nil.1 (field_has h1)⟩
  · rintro ⟨h1, h2, h3, h4, _⟩
    simp [h1, h2, h3, h4]

theorem read_alterForeignKey {d : Doc} {x1 x2 x3 x4 x5} :
    changeOf "AlterForeignKeyChange" d = some (.alterForeignKey x1 x2 x3 x4 x5) ↔ Has d (.map (fieldsOf (.alterForeignKey x1 x2 x3 x4 x5))) := by
  simp only [changeOf, fieldsOf, changeDoc, tagged, reduceCtorEq, if_false, if_true, String.reduceEq, ↓reduceIte]
  rw [has_str, has_str, has_str, has_bool, has_bool, has_nil]
  constructor
  · intro h
    obtain ⟨_, h1, h⟩ := Option.bind_eq_some_iff.1 h
    obtain ⟨_, h2, h⟩ := Option.bind_eq_some_iff.1 h
    obtain ⟨_, h3, h⟩ := Option.bind_eq_some_iff.1 h
    obtain ⟨_, h4, h⟩ := Option.bind_eq_some_iff.1 h
    obtain ⟨_, h5, h⟩ := Option.bind_eq_some_iff.1 h
    cases h
    exact ⟨h1, h2, h3, h4, h5, has_nil.1 (field_has h1)⟩
  · rintro ⟨h1, h2, h3, h4, h5, _⟩
    simp [h1, h2, h3, h4, h5]

theorem read_alterPrimaryKey {d : Doc} {x1 x2 x3 x4 x5} :
    changeOf "AlterPrimaryKeyChange" d = some (.alterPrimaryKey x1 x2 x3 x4 x5) ↔ Has d (.map (fieldsOf (.alterPrimaryKey x1 x2 x3 x4 x5))) := by
  simp only [changeOf, fieldsOf, changeDoc, tagged, reduceCtorEq, if_false, if_true, String.reduceEq, ↓reduceIte]
  rw [has_str, has_str, has_str, has_bool, has_bool, has_nil]
  constructor
  · intro h
    obtain ⟨_, h1, h⟩ := Option.bind_eq_some_iff.1 h
    obtain ⟨_, h2, h⟩ := Option.bind_eq_some_iff.1 h
    obtain ⟨_, h3, h⟩ := Option.bind_eq_some_iff.1 h
    obtain ⟨_, h4, h⟩ := Option.bind_eq_some_iff.1 h
    obtain ⟨_, h5, h⟩ := Option.bind_eq_some_iff.1 h
    cases h
    exact ⟨h1, h2, h3, h4, h5, has_nil.1 (field_has h1)⟩
  · rintro ⟨h1, h2, h3, h4, h5, _⟩
    simp [h1, h2, h3, h4, h5]

theorem read_alterUnique {d : Doc} {x1 x2 x3 x4 x5} :
    changeOf "AlterUniqueChange" d = some (.alterUnique x1 x2 x3 x4 x5) ↔ Has d (.map (fieldsOf (.alterUnique x1 x2 x3 x4 x5))) := by
  simp only [changeOf, fieldsOf, changeDoc, tagged, reduceCtorEq, if_false, if_true, String.reduceEq, ↓reduceIte]
  rw [has_str, has_str, has_str, has_bool, has_bool, has_nil]
  constructor
  · intro h
    obtain ⟨_, h1, h⟩ := Option.bind_eq_some_iff.1 h
    obtain ⟨_, h2, h⟩ := Option.bind_eq_some_iff.1 h
    obtain ⟨_, h3, h⟩ := Option.bind_eq_some_iff.1 h
    obtain ⟨_, h4, h⟩ := Option.bind_eq_some_iff.1 h
    obtain ⟨_, h5, h⟩ := Option.bind_eq_some_iff.1 h
    cases h
    exact ⟨h1, h2, h3, h4, h5, has_nil.1 (field_has h1)⟩
  · rintro ⟨h1, h2, h3, h4, h5, _⟩
    simp [h1, h2, h3, h4, h5]

theorem read_createFunction {d : Doc} {x1 x2 x3 x4 x5 x6} :
    changeOf "CreateFunctionChange" d = some (.createFunction x1 x2 x3 x4 x5 x6) ↔ Has d (.map (fieldsOf (.createFunction x1 x2 x3 x4 x5 x6))) := by
  simp only [changeOf, fieldsOf, changeDoc, tagged, reduceCtorEq, if_false, if_true, String.reduceEq, ↓reduceIte]
  rw [has_str, has_str, has_str, has_str, has_str, has_str, has_nil]
  constructor
  · intro h
    obtain ⟨_, h1, h⟩ := Option.bind_eq_some_iff.1 h
    obtain ⟨_, h2, h⟩ := Option.bind_eq_some_iff.1 h
    obtain ⟨_, h3, h⟩ := Option.bind_eq_some_iff.1 h
    obtain ⟨_, h4, h⟩ := Option.bind_eq_some_iff.1 h
    obtain ⟨_, h5, h⟩ := Option.bind_eq_some_iff.1 h
    obtain ⟨_, h6, h⟩ := Option.bind_eq_some_iff.1 h
    cases h
    exact ⟨h1, h2, h3, h4, h5, h6, has_nil.1 (field_has h1)⟩
  · rintro ⟨h1, h2, h3, h4, h5, h6, _⟩
    simp [h1, h2, h3, h4, h5, h6]

theorem read_createIndex {d : Doc} {x1 x2 x3 x4 x5 x6} :
    changeOf "CreateIndexChange" d = some (.createIndex x1 x2 x3 x4 x5 x6) ↔ Has d (.map (fieldsOf (.createIndex x1 x2 x3 x4 x5 x6))) := by
  simp only [changeOf, fieldsOf, changeDoc, tagged, reduceCtorEq, if_false, if_true, String.reduceEq, ↓reduceIte]
  rw [has_str, has_str, has_str, has_bool, has_str, has_strs, has_nil]
  constructor
  · intro h
    obtain ⟨_, h1, h⟩ := Option.bind_eq_some_iff.1 h
    obtain ⟨_, h2, h⟩ := Option.bind_eq_some_iff.1 h
    obtain ⟨_, h3, h⟩ := Option.bind_eq_some_iff.1 h
    obtain ⟨_, h4, h⟩ := Option.bind_eq_some_iff.1 h
    obtain ⟨_, h5, h⟩ := Option.bind_eq_some_iff.1 h
    obtain ⟨_, h6, h⟩ := Option.bind_eq_some_iff.1 h
    cases h
    exact ⟨h1, h2, h3, h4, h5, h6, has_nil.1 (field_has h1)⟩
  · rintro ⟨h1, h2, h3, h4, h5, h6, _⟩
    simp [h1, h2, h3, h4, h5, h6]

theorem read_createSchema {d : Doc} {x1} :
    changeOf "CreateSchemaChange" d = some (.createSchema x1) ↔ Has d (.map (fieldsOf (.createSchema x1))) := by
  simp only [changeOf, fieldsOf, changeDoc, tagged, reduceCtorEq, if_false, if_true, String.reduceEq, ↓reduceIte]
  rw [has_str, has_nil]
  constructor
  · intro h
    obtain ⟨_, h1, h⟩ := Option.bind_eq_some_iff.1 h
    cases h
    exact ⟨h1, has_nil.1 (field_has h1)⟩
  · rintro ⟨h1, _⟩
    simp [h1]

theorem read_createSequence {d : Doc} {x1 x2 x3 x4 x5 x6 x7 x8 x9} :
    changeOf "CreateSequenceChange" d = some (.createSequence x1 x2 x3 x4 x5 x6 x7 x8 x9) ↔ Has d (.map (fieldsOf (.createSequence x1 x2 x3 x4 x5 x6 x7 x8 x9))) ∧ FitsInt64 (.createSequence x1 x2 x3 x4 x5 x6 x7 x8 x9) := by
  simp only [changeOf, fieldsOf, changeDoc, tagged, reduceCtorEq, if_false, if_true, String.reduceEq, ↓reduceIte]
  constructor
  · intro h
    obtain ⟨_, h1, h⟩ := Option.bind_eq_some_iff.1 h
    obtain ⟨_, h2, h⟩ := Option.bind_eq_some_iff.1 h
    obtain ⟨_, h3, h⟩ := Option.bind_eq_some_iff.1 h
    obtain ⟨_, h4, h⟩ := Option.bind_eq_some_iff.1 h
    obtain ⟨_, h5, h⟩ := Option.bind_eq_some_iff.1 h
    obtain ⟨_, h6, h⟩ := Option.bind_eq_some_iff.1 h
    obtain ⟨_, h7, h⟩ := Option.bind_eq_some_iff.1 h
    obtain ⟨_, h8, h⟩ := Option.bind_eq_some_iff.1 h
    obtain ⟨_, h9, h⟩ := Option.bind_eq_some_iff.1 h
    cases h
    rw [has_str, has_str, has_str, has_int (int_range h4), has_int (int_range h5), has_int (int_range h6), has_int (int_range h7), has_int (int_range h8), has_bool, has_nil]
    refine ⟨⟨h1, h2, h3, h4, h5, h6, h7, h8, h9, has_nil.1 (field_has h1)⟩, ?_⟩
    simp only [FitsInt64, List.forall_mem_cons, List.not_mem_nil, false_implies, implies_true, and_true]
    exact ⟨int_range h4, int_range h5, int_range h6, int_range h7, int_range h8⟩
  · rintro ⟨h, hx⟩
    simp only [FitsInt64, List.forall_mem_cons, List.not_mem_nil, false_implies, implies_true, and_true] at hx
    obtain ⟨r0, r1, r2, r3, r4⟩ := hx
    rw [has_str, has_str, has_str, has_int r0, has_int r1, has_int r2, has_int r3, has_int r4, has_bool, has_nil] at h
    obtain ⟨h1, h2, h3, h4, h5, h6, h7, h8, h9, _⟩ := h
    simp [h1, h2, h3, h4, h5, h6, h7, h8, h9]

theorem read_createTable {d : Doc} {x1 x2 x3} :
    changeOf "CreateTableChange" d = some (.createTable x1 x2 x3) ↔ Has d (.map (fieldsOf (.createTable x1 x2 x3))) := by
  simp only [changeOf, fieldsOf, changeDoc, tagged, reduceCtorEq, if_false, if_true, String.reduceEq, ↓reduceIte]
  rw [has_str, has_str, has_columns, has_nil]
  constructor
  · intro h
    obtain ⟨_, h1, h⟩ := Option.bind_eq_some_iff.1 h
    obtain ⟨_, h2, h⟩ := Option.bind_eq_some_iff.1 h
    obtain ⟨_, h3, h⟩ := Option.bind_eq_some_iff.1 h
    cases h
    exact ⟨h1, h2, h3, has_nil.1 (field_has h1)⟩
  · rintro ⟨h1, h2, h3, _⟩
    simp [h1, h2, h3]

theorem read_createView {d : Doc} {x1 x2 x3} :
    changeOf "CreateViewChange" d = some (.createView x1 x2 x3) ↔ Has d (.map (fieldsOf (.createView x1 x2 x3))) := by
  simp only [changeOf, fieldsOf, changeDoc, tagged, reduceCtorEq, if_false, if_true, String.reduceEq, ↓reduceIte]
  rw [has_str, has_str, has_str, has_nil]
  constructor
  · intro h
    obtain ⟨_, h1, h⟩ := Option.bind_eq_some_iff.1 h
    obtain ⟨_, h2, h⟩ := Option.bind_eq_some_iff.1 h
    obtain ⟨_, h3, h⟩ := Option.bind_eq_some_iff.1 h
    cases h
    exact ⟨h1, h2, h3, has_nil.1 (field_has h1)⟩
  · rintro ⟨h1, h2, h3, _⟩
    simp [h1, h2, h3]

theorem read_dropCheck {d : Doc} {x1 x2 x3} :
    changeOf "DropCheckChange" d = some (.dropCheck x1 x2 x3) ↔ Has d (.map (fieldsOf (.dropCheck x1 x2 x3))) := by
  simp only [changeOf, fieldsOf, changeDoc, tagged, reduceCtorEq, if_false, if_true, String.reduceEq, ↓reduceIte]
  rw [has_str, has_str, has_str, has_nil]
  constructor
  · intro h
    obtain ⟨_, h1, h⟩ := Option.bind_eq_some_iff.1 h
    obtain ⟨_, h2, h⟩ := Option.bind_eq_some_iff.1 h
    obtain ⟨_, h3, h⟩ := Option.bind_eq_some_iff.1 h
    cases h
    exact ⟨h1, h2, h3, has_nil.1 (field_has h1)⟩
  · rintro ⟨h1, h2, h3, _⟩
    simp [h1, h2, h3]

theorem read_dropColumn {d : Doc} {x1 x2 x3} :
    changeOf "DropColumnChange" d = some (.dropColumn x1 x2 x3) ↔ Has d (.map (fieldsOf (.dropColumn x1 x2 x3))) := by
  simp only [changeOf, fieldsOf, changeDoc, tagged, reduceCtorEq, if_false, if_true, String.reduceEq, ↓reduceIte]
  rw [has_str, has_str, has_str, has_nil]
  constructor
  · intro h
    obtain ⟨_, h1, h⟩ := Option.bind_eq_some_iff.1 h
    obtain ⟨_, h2, h⟩ := Option.bind_eq_some_iff.1 h
    obtain ⟨_, h3, h⟩ := Option.bind_eq_some_iff.1 h
    cases h
    exact ⟨h1, h2, h3, has_nil.1 (field_has h1)⟩
  · rintro ⟨h1, h2, h3, _⟩
    simp [h1, h2, h3]

theorem read_dropForeignKey {d : Doc} {x1 x2 x3} :
    changeOf "DropForeignKeyChange" d = some (.dropForeignKey x1 x2 x3) ↔ Has d (.map (fieldsOf (.dropForeignKey x1 x2 x3))) := by
  simp only [changeOf, fieldsOf, changeDoc, tagged, reduceCtorEq, if_false, if_true, String.reduceEq, ↓reduceIte]
  rw [has_str, has_str, has_str, has_nil]
  constructor
  · intro h
    obtain ⟨_, h1, h⟩ := Option.bind_eq_some_iff.1 h
    obtain ⟨_, h2, h⟩ := Option.bind_eq_some_iff.1 h
    obtain ⟨_, h3, h⟩ := Option.bind_eq_some_iff.1 h
    cases h
    exact ⟨h1, h2, h3, has_nil.1 (field_has h1)⟩
  · rintro ⟨h1, h2, h3, _⟩
    simp [h1, h2, h3]

theorem read_dropFunction {d : Doc} {x1 x2} :
    changeOf "DropFunctionChange" d = some (.dropFunction x1 x2) ↔ Has d (.map (fieldsOf (.dropFunction x1 x2))) := by
  simp only [changeOf, fieldsOf, changeDoc, tagged, reduceCtorEq, if_false, if_true, String.reduceEq, ↓reduceIte]
  rw [has_str, has_str, has_nil]
  constructor
  · intro h
    obtain ⟨_, h1, h⟩ := Option.bind_eq_some_iff.1 h
    obtain ⟨_, h2, h⟩ := Option.bind_eq_some_iff.1 h
    cases h
    exact ⟨h1, h2, has_nil.1 (field_has h1)⟩
  · rintro ⟨h1, h2, _⟩
    simp [h1, h2]

theorem read_dropIndex {d : Doc} {x1 x2} :
    changeOf "DropIndexChange" d = some (.dropIndex x1 x2) ↔ Has d (.map (fieldsOf (.dropIndex x1 x2))) := by
  simp only [changeOf, fieldsOf, changeDoc, tagged, reduceCtorEq, if_false, if_true, String.reduceEq, ↓reduceIte]
  rw [has_str, has_str, has_nil]
  constructor
  · intro h
    obtain ⟨_, h1, h⟩ := Option.bind_eq_some_iff.1 h
    obtain ⟨_, h2, h⟩ := Option.bind_eq_some_iff.1 h
    cases h
    exact ⟨h1, h2, has_nil.1 (field_has h1)⟩
  · rintro ⟨h1, h2, _⟩
    simp [h1, h2]

theorem read_dropPrimaryKey {d : Doc} {x1 x2 x3} :
    changeOf "DropPrimaryKeyChange" d = some (.dropPrimaryKey x1 x2 x3) ↔ Has d (.map (fieldsOf (.dropPrimaryKey x1 x2 x3))) := by
  simp only [changeOf, fieldsOf, changeDoc, tagged, reduceCtorEq, if_false, if_true, String.reduceEq, ↓reduceIte]
  rw [has_str, has_str, has_str, has_nil]
  constructor
  · intro h
    obtain ⟨_, h1, h⟩ := Option.bind_eq_some_iff.1 h
    obtain ⟨_, h2, h⟩ := Option.bind_eq_some_iff.1 h
    obtain ⟨_, h3, h⟩ := Option.bind_eq_some_iff.1 h
    cases h
    exact ⟨h1, h2, h3, has_nil.1 (field_has h1)⟩
  · rintro ⟨h1, h2, h3, _⟩
    simp [h1, h2, h3]

theorem read_dropSchema {d : Doc} {x1} :
    changeOf "DropSchemaChange" d = some (.dropSchema x1) ↔ Has d (.map (fieldsOf (.dropSchema x1))) := by
  simp only [changeOf, fieldsOf, changeDoc, tagged, reduceCtorEq, if_false, if_true, String.reduceEq, ↓reduceIte]
  rw [has_str, has_nil]
  constructor
  · intro h
    obtain ⟨_, h1, h⟩ := Option.bind_eq_some_iff.1 h
    cases h
    exact ⟨h1, has_nil.1 (field_has h1)⟩
  · rintro ⟨h1, _⟩
    simp [h1]

theorem read_dropSequence {d : Doc} {x1 x2} :
    changeOf "DropSequenceChange" d = some (.dropSequence x1 x2) ↔ Has d (.map (fieldsOf (.dropSequence x1 x2))) := by
  simp only [changeOf, fieldsOf, changeDoc, tagged, reduceCtorEq, if_false, if_true, String.reduceEq, ↓reduceIte]
  rw [has_str, has_str, has_nil]
  constructor
  · intro h
    obtain ⟨_, h1, h⟩ := Option.bind_eq_some_iff.1 h
    obtain ⟨_, h2, h⟩ := Option.bind_eq_some_iff.1 h
    cases h
    exact ⟨h1, h2, has_nil.1 (field_has h1)⟩
  · rintro ⟨h1, h2, _⟩
    simp [h1, h2]

theorem read_dropTable {d : Doc} {x1 x2} :
    changeOf "DropTableChange" d = some (.dropTable x1 x2) ↔ Has d (.map (fieldsOf (.dropTable x1 x2))) := by
  simp only [changeOf, fieldsOf, changeDoc, tagged, reduceCtorEq, if_false, if_true, String.reduceEq, ↓reduceIte]
  rw [has_str, has_str, has_nil]
  constructor
  · intro h
    obtain ⟨_, h1, h⟩ := Option.bind_eq_some_iff.1 h
    obtain ⟨_, h2, h⟩ := Option.bind_eq_some_iff.1 h
    cases h
    exact ⟨h1, h2, has_nil.1 (field_has h1)⟩
  · rintro ⟨h1, h2, _⟩
    simp [h1, h2]

theorem read_dropUnique {d : Doc} {x1 x2 x3} :
    changeOf "DropUniqueChange" d = some (.dropUnique x1 x2 x3) ↔ Has d (.map (fieldsOf (.dropUnique x1 x2 x3))) := by
  simp only [changeOf, fieldsOf, changeDoc, tagged, reduceCtorEq, if_false, if_true, String.reduceEq, ↓reduceIte]
  rw [has_str, has_str, has_str, has_nil]
  constructor
  · intro h
    obtain ⟨_, h1, h⟩ := Option.bind_eq_some_iff.1 h
    obtain ⟨_, h2, h⟩ := Option.bind_eq_some_iff.1 h
    obtain ⟨_, h3, h⟩ := Option.bind_eq_some_iff.1 h
    cases h
    exact ⟨h1, h2, h3, has_nil.1 (field_has h1)⟩
  · rintro ⟨h1, h2, h3, _⟩
    simp [h1, h2, h3]

theorem read_dropView {d : Doc} {x1 x2} :
    changeOf "DropViewChange" d = some (.dropView x1 x2) ↔ Has d (.map (fieldsOf (.dropView x1 x2))) := by
  simp only [changeOf, fieldsOf, changeDoc, tagged, reduceCtorEq, if_false, if_true, String.reduceEq, ↓reduceIte]
  rw [has_str, has_str, has_nil]
  constructor
  · intro h
    obtain ⟨_, h1, h⟩ := Option.bind_eq_some_iff.1 h
    obtain ⟨_, h2, h⟩ := Option.bind_eq_some_iff.1 h
    cases h
    exact ⟨h1, h2, has_nil.1 (field_has h1)⟩
  · rintro ⟨h1, h2, _⟩
    simp [h1, h2]

theorem read_renameColumn {d : Doc} {x1 x2 x3 x4} :
    changeOf "RenameColumnChange" d = some (.renameColumn x1 x2 x3 x4) ↔ Has d (.map (fieldsOf (.renameColumn x1 x2 x3 x4))) := by
  simp only [changeOf, fieldsOf, changeDoc, tagged, reduceCtorEq, if_false, if_true, String.reduceEq, ↓reduceIte]
  rw [has_str, has_str, has_str, has_str, has_nil]
  constructor
  · intro h
    obtain ⟨_, h1, h⟩ := Option.bind_eq_some_iff.1 h
    obtain ⟨_, h2, h⟩ := Option.bind_eq_some_iff.1 h
    obtain ⟨_, h3, h⟩ := Option.bind_eq_some_iff.1 h
    obtain ⟨_, h4, h⟩ := Option.bind_eq_some_iff.1 h
    cases h
    exact ⟨h1, h2, h3, h4, has_nil.1 (field_has h1)⟩
  · rintro ⟨h1, h2, h3, h4, _⟩
    simp [h1, h2, h3, h4]

theorem changeOf_iff {d : Doc} {c : Change} :
    changeOf (tagOf c) d = some c ↔ Has d (.map (fieldsOf c)) ∧ FitsInt64 c := by
  cases c with
  | addCheck _ _ _ _ _ _ => exact read_addCheck.trans (and_iff_left trivial).symm
  | addColumn _ _ _ _ _ _ => exact read_addColumn.trans (and_iff_left trivial).symm
  | addForeignKey _ _ _ _ _ _ _ _ _ _ _ _ => exact read_addForeignKey.trans (and_iff_left trivial).symm
  | addPrimaryKey _ _ _ _ _ _ => exact read_addPrimaryKey.trans (and_iff_left trivial).symm
  | addUnique _ _ _ _ _ _ => exact read_addUnique.trans (and_iff_left trivial).symm
  | alterCheck _ _ _ _ _ => exact read_alterCheck.trans (and_iff_left trivial).symm
  | setDataType _ _ _ _ => exact read_setDataType.trans (and_iff_left trivial).symm
  | setDefault _ _ _ _ => exact read_setDefault.trans (and_iff_left trivial).symm
  | setNotNull _ _ _ _ => exact read_setNotNull.trans (and_iff_left trivial).symm
  | alterForeignKey _ _ _ _ _ => exact read_alterForeignKey.trans (and_iff_left trivial).symm
  | alterPrimaryKey _ _ _ _ _ => exact read_alterPrimaryKey.trans (and_iff_left trivial).symm
  | alterUnique _ _ _ _ _ => exact read_alterUnique.trans (and_iff_left trivial).symm
  | createFunction _ _ _ _ _ _ => exact read_createFunction.trans (and_iff_left trivial).symm
  | createIndex _ _ _ _ _ _ => exact read_createIndex.trans (and_iff_left trivial).symm
  | createSchema _ => exact read_createSchema.trans (and_iff_left trivial).symm
  | createSequence _ _ _ _ _ _ _ _ _ => exact read_createSequence
  | createTable _ _ _ => exact read_createTable.trans (and_iff_left trivial).symm
  | createView _ _ _ => exact read_createView.trans (and_iff_left trivial).symm
  | dropCheck _ _ _ => exact read_dropCheck.trans (and_iff_left trivial).symm
  | dropColumn _ _ _ => exact read_dropColumn.trans (and_iff_left trivial).symm
  | dropForeignKey _ _ _ => exact read_dropForeignKey.trans (and_iff_left trivial).symm
  | dropFunction _ _ => exact read_dropFunction.trans (and_iff_left trivial).symm
  | dropIndex _ _ => exact read_dropIndex.trans (and_iff_left trivial).symm
  | dropPrimaryKey _ _ _ => exact read_dropPrimaryKey.trans (and_iff_left trivial).symm
  | dropSchema _ => exact read_dropSchema.trans (and_iff_left trivial).symm
  | dropSequence _ _ => exact read_dropSequence.trans (and_iff_left trivial).symm
  | dropTable _ _ => exact read_dropTable.trans (and_iff_left trivial).symm
  | dropUnique _ _ _ => exact read_dropUnique.trans (and_iff_left trivial).symm
  | dropView _ _ => exact read_dropView.trans (and_iff_left trivial).symm
  | renameColumn _ _ _ _ => exact read_renameColumn.trans (and_iff_left trivial).symm

theorem change_iff {d : Doc} {c : Change} : change d = some c ↔ Has d (changeDoc c) ∧ FitsInt64 c := by
  rw [changeDoc_eq, tagged, has_str]
  constructor
  · intro h
    unfold change at h
    split at h
    · next tag ht =>
      unfold field at h
      split at h
      · next es =>
        split at h
        · next x hg =>
          cases changeOf_sort tag x c h
          obtain ⟨h1, h2⟩ := changeOf_iff.1 h
          exact ⟨⟨ht, .entry (given_only.1 hg) h1 (.empty _)⟩, h2⟩
        · cases h
      · cases h
    · cases h
  · rintro ⟨⟨h1, h2⟩, h3⟩
    unfold change
    rw [h1]
    dsimp only
    cases h2 with
    | entry ho hh _ =>
      unfold field
      dsimp only
      rw [given_only.2 ho]
      exact changeOf_iff.2 ⟨hh, h3⟩

theorem readAll_all {α : Type} {f : Doc → Option α} {P : α → Prop} (hf : ∀ d a, f d = some a → P a) :
    ∀ {ds : List Doc} {as : List α}, readAll f ds = some as → ∀ a ∈ as, P a
  | [], as, h => by cases h; simp
  | d :: ds, as, h => by
    unfold readAll at h
    split at h
    · next x xs h1 h2 =>
      cases h
      intro a ha
      rcases List.mem_cons.1 ha with rfl | ha
      · exact hf d _ h1
      · exact readAll_all hf h2 a ha
    · cases h

theorem changes_iff {d : Doc} {cs : List Change} :
    changes d = some cs ↔ Has d (changesDoc cs) ∧ ∀ c ∈ cs, FitsInt64 c := by
  constructor
  · intro h
    have hfit : ∀ c ∈ cs, FitsInt64 c := by
      unfold changes list at h
      split at h
      · exact readAll_all (fun d a ha => (change_iff.1 ha).2) h
      · cases h
    exact ⟨(list_iff (enc := changeDoc) fun c hc d =>
      ⟨fun hx => (change_iff.1 hx).1, fun hx => change_iff.2 ⟨hx, hfit c hc⟩⟩).1 h, hfit⟩
  · rintro ⟨h, hfit⟩
    exact (list_iff (enc := changeDoc) fun c hc d =>
      ⟨fun hx => (change_iff.1 hx).1, fun hx => change_iff.2 ⟨hx, hfit c hc⟩⟩).2 h

theorem version_iff {d : Doc} {v : Version} :
    version d = some v ↔ Has d (versionDoc v) ∧ ∀ c ∈ v.changes, FitsInt64 c := by
  obtain ⟨n, p, cs, up, dn⟩ := v
  unfold versionDoc
  constructor
  · intro h
    unfold version at h
    obtain ⟨_, h1, h⟩ := Option.bind_eq_some_iff.1 h
    obtain ⟨_, h2, h⟩ := Option.bind_eq_some_iff.1 h
    obtain ⟨_, h3, h⟩ := Option.bind_eq_some_iff.1 h
    obtain ⟨_, h4, h⟩ := Option.bind_eq_some_iff.1 h
    obtain ⟨_, h5, h⟩ := Option.bind_eq_some_iff.1 h
    cases h
    have hfit : ∀ c ∈ cs, FitsInt64 c := by
      unfold field at h3
      split at h3
      · split at h3
        · exact (changes_iff.1 h3).2
        · cases h3
      · cases h3
    have hc : ∀ x, changes x = some cs ↔ Has x (changesDoc cs) :=
      fun x => ⟨fun hx => (changes_iff.1 hx).1, fun hx => changes_iff.2 ⟨hx, hfit⟩⟩
    refine ⟨?_, hfit⟩
    rw [has_str, has_optField, has_field hc (by simp [changesDoc]), has_strs, has_strs]
    exact ⟨h1, h2, h3, h4, h5, field_has h1⟩
  · rintro ⟨h, hfit⟩
    have hfit : ∀ c ∈ cs, FitsInt64 c := hfit
    have hc : ∀ x, changes x = some cs ↔ Has x (changesDoc cs) :=
      fun x => ⟨fun hx => (changes_iff.1 hx).1, fun hx => changes_iff.2 ⟨hx, hfit⟩⟩
    rw [has_str, has_optField, has_field hc (by simp [changesDoc]), has_strs, has_strs] at h
    obtain ⟨h1, h2, h3, h4, h5, _⟩ := h
    simp [version, h1, h2, h3, h4, h5]

end Serde
end Podo
