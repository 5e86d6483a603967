/-
Association maps: the model of Rust's `HashMap<String, V>`.

The order of the list stands for the iteration order of the hash map.  Theorems quantify over
all lists and thereby over all iteration orders.
-/
namespace Podo

/-- Model of `HashMap<String, α>` (e.g. /repo/src/snapshot/types/database.rs:8-10). Simplification:
a list of key/value pairs; "keys are unique" is a separate predicate (`AMap.NodupKeys`). -/
abbrev AMap (α : Type) := List (String × α)

namespace AMap
variable {α β : Type}

/-- `HashMap::get`. -/
def get? : AMap α → String → Option α
  | [], _ => none
  | (k', v) :: m, k => if k' = k then some v else get? m k

/-- `HashMap::contains_key`. -/
def has (m : AMap α) (k : String) : Bool := (get? m k).isSome

/-- The keys in iteration order. -/
def keys (m : AMap α) : List String := m.map Prod.fst

/-- `HashMap::values`. -/
def values (m : AMap α) : List α := m.map Prod.snd

/-- `HashMap::insert` of a key that is absent (all call sites test first). -/
def insertNew (m : AMap α) (k : String) (v : α) : AMap α := m ++ [(k, v)]

/-- Overwriting through `HashMap::get_mut`. -/
def set (m : AMap α) (k : String) (v : α) : AMap α :=
  m.map fun p => if p.1 = k then (k, v) else p

/-- `HashMap::remove`. -/
def erase (m : AMap α) (k : String) : AMap α := m.filter fun p => p.1 != k

/-- Keys of a hash map are unique. -/
def NodupKeys (m : AMap α) : Prop := (keys m).Nodup

instance (m : AMap α) : Decidable (NodupKeys m) := by unfold NodupKeys; infer_instance

@[simp] theorem get?_nil (k : String) : get? ([] : AMap α) k = none := rfl

@[simp] theorem get?_cons (p : String × α) (m : AMap α) (k : String) :
    get? (p :: m) k = if p.1 = k then some p.2 else get? m k := rfl

@[simp] theorem keys_nil : keys ([] : AMap α) = [] := rfl
@[simp] theorem keys_cons (p : String × α) (m : AMap α) : keys (p :: m) = p.1 :: keys m := rfl
@[simp] theorem keys_append (m n : AMap α) : keys (m ++ n) = keys m ++ keys n := by
  simp [keys]

@[simp] theorem nodupKeys_nil : NodupKeys ([] : AMap α) := List.nodup_nil
@[simp] theorem nodupKeys_cons (p : String × α) (m : AMap α) :
    NodupKeys (p :: m) ↔ p.1 ∉ keys m ∧ NodupKeys m := by
  simp [NodupKeys]

theorem get?_append (m n : AMap α) (k : String) :
    get? (m ++ n) k = (get? m k).or (get? n k) := by
  induction m with
  | nil => simp
  | cons p m ih =>
    simp only [List.cons_append, get?_cons]
    split <;> simp [ih]

theorem get?_eq_none_iff {m : AMap α} {k : String} : get? m k = none ↔ k ∉ keys m := by
  induction m with
  | nil => simp
  | cons p m ih =>
    simp only [get?_cons, keys_cons, List.mem_cons, not_or]
    by_cases h : p.1 = k
    · simp [h]
    · simp [h, ih, Ne.symm h]

theorem get?_isSome_iff {m : AMap α} {k : String} : (get? m k).isSome ↔ k ∈ keys m := by
  have h := get?_eq_none_iff (m := m) (k := k)
  cases e : get? m k <;> simp_all

theorem has_iff {m : AMap α} {k : String} : has m k = true ↔ k ∈ keys m := get?_isSome_iff

theorem has_eq_false_iff {m : AMap α} {k : String} : has m k = false ↔ get? m k = none := by
  simp [has]

theorem has_of_none {m : AMap α} {k : String} (h : get? m k = none) : has m k = false := by
  simp [has, h]

theorem has_of_some {m : AMap α} {k : String} {v : α} (h : get? m k = some v) :
    has m k = true := by simp [has, h]

theorem mem_of_get? {m : AMap α} {k : String} {v : α} (h : get? m k = some v) : (k, v) ∈ m := by
  induction m with
  | nil => simp at h
  | cons p m ih =>
    simp only [get?_cons] at h
    split at h
    · next e => simp at h; subst e; subst h; simp
    · exact List.mem_cons_of_mem _ (ih h)

theorem get?_of_mem {m : AMap α} (hm : NodupKeys m) {k : String} {v : α} (h : (k, v) ∈ m) :
    get? m k = some v := by
  induction m with
  | nil => simp at h
  | cons p m ih =>
    rw [nodupKeys_cons] at hm
    rcases List.mem_cons.1 h with h | h
    · subst h; simp
    · have : k ∈ keys m := List.mem_map.2 ⟨_, h, rfl⟩
      have hne : p.1 ≠ k := fun e => hm.1 (e ▸ this)
      simp [hne, ih hm.2 h]

theorem get?_iff_mem {m : AMap α} (hm : NodupKeys m) {k : String} {v : α} :
    get? m k = some v ↔ (k, v) ∈ m := ⟨mem_of_get?, get?_of_mem hm⟩

theorem mem_keys_of_get? {m : AMap α} {k : String} {v : α} (h : get? m k = some v) :
    k ∈ keys m := get?_isSome_iff.1 (by simp [h])

theorem get?_insertNew (m : AMap α) (k : String) (v : α) (j : String) (h : get? m k = none) :
    get? (insertNew m k v) j = if j = k then some v else get? m j := by
  rw [insertNew, get?_append]
  by_cases e : j = k
  · subst e; simp [h]
  · simp [e, Ne.symm e]

theorem keys_insertNew (m : AMap α) (k : String) (v : α) :
    keys (insertNew m k v) = keys m ++ [k] := by simp [insertNew]

theorem nodupKeys_insertNew {m : AMap α} (hm : NodupKeys m) {k : String} {v : α}
    (h : get? m k = none) : NodupKeys (insertNew m k v) := by
  unfold NodupKeys
  rw [keys_insertNew]
  rw [get?_eq_none_iff] at h
  exact List.nodup_append.2 ⟨hm, by simp, by
    intro a ha b hb e
    simp at hb; subst hb; subst e; exact h ha⟩

theorem get?_set (m : AMap α) (k : String) (v : α) (j : String) (h : (get? m k).isSome) :
    get? (set m k v) j = if j = k then some v else get? m j := by
  induction m with
  | nil => simp at h
  | cons p m ih =>
    simp only [set, List.map_cons, get?_cons] at h ⊢
    by_cases e : p.1 = k
    · simp only [e, if_true]
      by_cases hj : j = k
      · simp [hj]
      · simp only [hj, Ne.symm hj, if_false]
        clear ih h
        induction m with
        | nil => rfl
        | cons q m ih =>
          simp only [List.map_cons, get?_cons]
          by_cases eq : q.1 = k
          · simp [eq, Ne.symm hj, ih]
          · simp [eq, ih]
    · simp only [e, if_false] at h ⊢
      have := ih h
      simp only [set] at this
      by_cases hj : p.1 = j
      · have : j ≠ k := fun x => e (hj.trans x)
        simp [hj, this]
      · simp [hj, this]

@[simp] theorem keys_set (m : AMap α) (k : String) (v : α) : keys (set m k v) = keys m := by
  simp only [keys, set, List.map_map]
  apply List.map_congr_left
  intro p _
  simp only [Function.comp]
  split <;> simp_all

theorem nodupKeys_set {m : AMap α} (hm : NodupKeys m) (k : String) (v : α) :
    NodupKeys (set m k v) := by
  unfold NodupKeys; rw [keys_set]; exact hm

theorem set_set (m : AMap α) (k : String) (v w : α) : set (set m k v) k w = set m k w := by
  simp only [set, List.map_map]
  apply List.map_congr_left
  intro p _
  simp only [Function.comp]
  split <;> simp_all

theorem set_self {m : AMap α} (hm : NodupKeys m) {k : String} {v : α} (h : get? m k = some v) :
    set m k v = m := by
  rw [set]
  conv => rhs; rw [← List.map_id m]
  apply List.map_congr_left
  intro p hp
  split
  · next e =>
    have := get?_of_mem hm (k := p.1) (v := p.2) hp
    rw [e, h] at this
    simp only [Option.some.injEq] at this
    subst this; subst e; rfl
  · rfl

theorem get?_erase (m : AMap α) (k j : String) :
    get? (erase m k) j = if j = k then none else get? m j := by
  induction m with
  | nil => simp [erase]
  | cons p m ih =>
    simp only [erase] at ih
    simp only [erase, List.filter_cons]
    by_cases e : p.1 = k
    · simp only [e, bne_self_eq_false, Bool.false_eq_true, if_false, ih, get?_cons]
      by_cases hj : j = k
      · simp [hj]
      · simp [hj, Ne.symm hj]
    · have : (p.1 != k) = true := by simpa using e
      simp only [this, if_true, get?_cons, ih]
      by_cases hj : p.1 = j
      · have : j ≠ k := fun x => e (hj.trans x)
        simp [hj, this]
      · simp [hj]

theorem nodupKeys_erase {m : AMap α} (hm : NodupKeys m) (k : String) :
    NodupKeys (erase m k) := by
  unfold NodupKeys keys erase
  exact hm.sublist (List.Sublist.map _ List.filter_sublist)

theorem mem_erase {m : AMap α} {k : String} {p : String × α} :
    p ∈ erase m k ↔ p ∈ m ∧ p.1 ≠ k := by
  simp [erase]

theorem get?_perm {m n : AMap α} (hm : NodupKeys m) (h : m.Perm n) (k : String) :
    get? m k = get? n k := by
  have hn : NodupKeys n := by
    unfold NodupKeys at *
    exact (h.map Prod.fst).nodup_iff.1 hm
  cases e : get? n k with
  | none =>
    rw [get?_eq_none_iff] at e ⊢
    intro hk; exact e ((h.map Prod.fst).mem_iff.1 hk)
  | some v => exact get?_of_mem hm (h.mem_iff.2 (mem_of_get? e))

theorem nodupKeys_perm {m n : AMap α} (h : m.Perm n) : NodupKeys m ↔ NodupKeys n :=
  (h.map Prod.fst).nodup_iff

end AMap
end Podo
