import Verif.Model.Cli
import Verif.Spec.Cli
/-
Lemmas about the command line.
-/
namespace Podo
namespace Cli
open Prog

theorem ofList_append (a b : List Char) : String.ofList a ++ String.ofList b = String.ofList (a ++ b) := by
  apply String.toList_injective; simp

theorem eq_ofList {s : String} {l : List Char} (h : s.toList = l) : s = String.ofList l := by
  apply String.toList_injective; simp [h]

/-- What is a value, when one is expected. -/
theorem value_iff {v : String} : (v ≠ "--" ∧ long v = none ∧ short v = false) ↔
    (v = "-" ∨ v.toList.head? ≠ some '-') := by
  constructor
  · rintro ⟨h1, h2, h3⟩
    rcases hv : v.toList with _ | ⟨c, cs⟩
    · right; simp
    · by_cases hc : c = '-'
      · subst hc
        rcases cs with _ | ⟨c, cs⟩
        · left; exact eq_ofList hv
        · by_cases hc : c = '-'
          · subst hc
            rcases cs with _ | ⟨c, cs⟩
            · exact absurd (eq_ofList hv) h1
            · rw [long, hv] at h2; cases h2
          · rw [short, hv] at h3
            simp [hc] at h3
      · right; simp [hc]
  · rintro (rfl | h)
    · decide
    · refine ⟨?_, ?_, ?_⟩
      · rintro rfl; exact h rfl
      · unfold long
        split
        · next hv => rw [hv] at h; simp at h
        · rfl
      · unfold short
        split
        · next hv => rw [hv] at h; simp at h
        · rfl

theorem takeWhile_dropWhile (p : Char → Bool) (l : List Char) : l.takeWhile p ++ l.dropWhile p = l := by
  simp

theorem dropWhile_stops {p : Char → Bool} {l : List Char} {x : Char} {v : List Char}
    (h : l.dropWhile p = x :: v) : p x = false := by
  induction l with
  | nil => cases h
  | cons c l ih =>
    rw [List.dropWhile_cons] at h
    split at h
    · exact ih h
    · next hc => cases h; simpa using hc

/-- An argument of the form `--name`. -/
theorem long_bare {arg name : String} (h : long arg = some (name, none)) : arg = "--" ++ name := by
  unfold long at h
  split at h
  · next c cs hv =>
    injection h with h
    injection h with h1 h2
    have hd : (c :: cs).dropWhile (· != '=') = [] := by
      split at h2
      · assumption
      · cases h2
    have := takeWhile_dropWhile (· != '=') (c :: cs)
    rw [hd, List.append_nil] at this
    rw [← h1, this]
    apply String.toList_injective
    rw [hv]; simp
  · cases h

/-- An argument of the form `--name=value`. -/
theorem long_joined {arg name value : String} (h : long arg = some (name, some value)) :
    arg = "--" ++ name ++ "=" ++ value := by
  unfold long at h
  split at h
  · next c cs hv =>
    injection h with h
    injection h with h1 h2
    split at h2
    · cases h2
    · next x v hd =>
      injection h2 with h2
      have hx : x = '=' := by
        simpa using dropWhile_stops hd
      subst hx
      have := takeWhile_dropWhile (· != '=') (c :: cs)
      rw [hd] at this
      rw [← h1, ← h2]
      generalize List.takeWhile (fun x => x != '=') (c :: cs) = u at this
      apply String.toList_injective
      rw [hv, ← this]; simp
  · cases h

/-- The names of the options podo has. -/
def IsOption (name : String) : Prop := name = "profile" ∨ name = "version"

theorem long_option {name : String} (h : IsOption name) : long ("--" ++ name) = some (name, none) := by
  rcases h with rfl | rfl <;> decide

theorem long_option_joined {name : String} (h : IsOption name) (v : String) :
    long ("--" ++ name ++ "=" ++ v) = some (name, some v) := by
  unfold long
  rcases h with rfl | rfl <;> simp

theorem dashes_ne {name : String} (h : IsOption name) : "--" ++ name ≠ "--" := by
  rcases h with rfl | rfl <;> decide

theorem dashes_ne_joined (name v : String) : "--" ++ name ++ "=" ++ v ≠ "--" := by
  intro h
  have := congrArg (fun s => s.toList.length) h
  simp at this

theorem readOptions_pending {options : List String} {name : String} {found m : AMap String} {args : List String} :
    readOptions options (some name) found args = some m ↔
      ∃ v rest, args = v :: rest ∧ (v = "-" ∨ v.toList.head? ≠ some '-') ∧
        readOptions options none ((name, v) :: found) rest = some m := by
  rcases args with _ | ⟨arg, rest⟩
  · simp [readOptions]
  · constructor
    · intro h
      rw [readOptions] at h
      split at h
      · simp at h
      · next hne =>
        split at h
        · simp at h
        · next hl =>
          split at h
          · cases h
          · next hs =>
            exact ⟨arg, rest, rfl, value_iff.1 ⟨hne, hl, by simpa using hs⟩, h⟩
    · rintro ⟨v, rest', e, hv, h⟩
      cases e
      obtain ⟨h1, h2, h3⟩ := value_iff.2 hv
      rw [readOptions, if_neg h1, h2]
      simp only [h3]
      exact h

/-- What can be read as options. -/
theorem readOptions_iff {options : List String} (hop : ∀ n ∈ options, IsOption n) {found m : AMap String}
    {args : List String} :
    readOptions options none found args = some m ↔
      ∃ os given last, args = given ++ last ∧ AllWritten os given ∧ (os.map (·.1)).Nodup ∧
        (∀ o ∈ os, o.1 ∈ options ∧ AMap.get? found o.1 = none) ∧ (last = [] ∨ last = ["--"]) ∧
        m = os.reverse ++ found := by
  induction hn : args.length using Nat.strongRecOn generalizing args found with
  | _ n ih =>
  constructor
  · intro h
    rcases args with _ | ⟨arg, rest⟩
    · simp [readOptions] at h
      exact ⟨[], [], [], rfl, .nil, by simp, by simp, .inl rfl, by simp [h]⟩
    · rw [readOptions] at h
      split at h
      · next ha =>
        split at h
        · cases h
        · next hr =>
          simp at hr h
          subst ha hr
          exact ⟨[], [], ["--"], rfl, .nil, by simp, by simp, .inr rfl, by simp [h]⟩
      · split at h
        · next name value hl =>
          split at h
          · cases h
          · next hc =>
            simp at hc
            obtain ⟨hc1, hc2⟩ := hc
            have fin : ∀ v here rest', Written name v here → arg :: rest = here ++ rest' →
                rest'.length < n → readOptions options none ((name, v) :: found) rest' = some m →
                ∃ os given last, arg :: rest = given ++ last ∧ AllWritten os given ∧ (os.map (·.1)).Nodup ∧
                  (∀ o ∈ os, o.1 ∈ options ∧ AMap.get? found o.1 = none) ∧ (last = [] ∨ last = ["--"]) ∧
                  m = os.reverse ++ found := by
              intro v here rest' hw he hlt hr
              obtain ⟨os, given, last, g1, g2, g3, g4, g5, g6⟩ := (ih _ hlt rfl).1 hr
              have hne : ∀ o ∈ os, o.1 ≠ name := by
                rintro o ho rfl
                have := (g4 o ho).2
                simp [AMap.get?] at this
              refine ⟨(name, v) :: os, here ++ given, last, by rw [he, g1, List.append_assoc], .cons hw g2,
                ?_, ?_, g5, by rw [g6]; simp⟩
              · simp only [List.map_cons, List.nodup_cons]
                refine ⟨?_, g3⟩
                intro hm
                obtain ⟨o, ho, e⟩ := List.mem_map.1 hm
                exact hne o ho e
              · intro o ho
                rcases List.mem_cons.1 ho with rfl | ho
                · exact ⟨hc1, hc2⟩
                · refine ⟨(g4 o ho).1, ?_⟩
                  have := (g4 o ho).2
                  simpa [AMap.get?, Ne.symm (hne o ho)] using this
            split at h
            · next v => 
              refine fin v [arg] rest ?_ rfl (by simp at hn; omega) h
              rw [long_joined hl]; exact .joined
            · obtain ⟨v, rest', e, hv, hr⟩ := readOptions_pending.1 h
              subst e
              refine fin v [arg, v] rest' ?_ rfl (by simp at hn; omega) hr
              rw [long_bare hl]; exact .apart hv
        · split at h
          · cases h
          · cases h
  · rintro ⟨os, given, last, h1, h2, h3, h4, h5, h6⟩
    cases h2 with
    | nil =>
      simp only [List.nil_append] at h1
      subst h1
      rcases h5 with rfl | rfl
      · simp [readOptions, h6]
      · simp [readOptions, h6]
    | @cons name value os here rest' hw hrest =>
      obtain ⟨ho, hf⟩ := h4 (name, value) (by simp)
      have hio := hop _ ho
      simp only [List.map_cons, List.nodup_cons] at h3
      have hrec : (rest' ++ last).length < n →
          readOptions options none ((name, value) :: found) (rest' ++ last) = some m := by
        intro hlt
        refine (ih _ hlt rfl).2 ⟨os, rest', last, rfl, hrest, h3.2, ?_, h5, by rw [h6]; simp⟩
        intro o hm
        refine ⟨(h4 o (by simp [hm])).1, ?_⟩
        have hne : name ≠ o.1 := fun e => h3.1 (List.mem_map.2 ⟨o, hm, e.symm⟩)
        simpa [AMap.get?, hne] using (h4 o (by simp [hm])).2
      cases hw with
      | apart hv =>
        subst h1
        simp only [List.cons_append, List.nil_append]
        rw [readOptions, if_neg (dashes_ne hio), long_option hio]
        simp [ho, hf]
        refine readOptions_pending.2 ⟨value, _, rfl, hv, hrec ?_⟩
        simp at hn ⊢; omega
      | joined =>
        subst h1
        simp only [List.cons_append, List.nil_append]
        rw [readOptions, if_neg (dashes_ne_joined _ _), long_option_joined hio]
        simp [ho, hf]
        refine hrec ?_
        simp at hn ⊢; omega

theorem get_iff {m : AMap String} (h : (m.map (·.1)).Nodup) {n v : String} :
    AMap.get? m n = some v ↔ (n, v) ∈ m := by
  induction m with
  | nil => simp [AMap.get?]
  | cons x m ih =>
    obtain ⟨k, u⟩ := x
    simp only [List.map_cons, List.nodup_cons] at h
    by_cases hk : k = n
    · subst hk
      simp only [AMap.get?, if_true, List.mem_cons, Prod.mk.injEq, true_and, Option.some.injEq]
      constructor
      · rintro rfl; exact .inl rfl
      · rintro (rfl | hm)
        · rfl
        · exact absurd (List.mem_map.2 ⟨_, hm, rfl⟩) h.1
    · simp only [AMap.get?, hk, if_false, List.mem_cons, Prod.mk.injEq]
      rw [ih h.2]
      simp [Ne.symm hk]

theorem given_profile {os : List (String × String)} (h : (os.map (·.1)).Nodup) {p : String} :
    getProfile os.reverse = p ↔ ProfileGiven os p := by
  have hr : (os.reverse.map (·.1)).Nodup := by rw [List.map_reverse]; exact List.pairwise_reverse.2 (h.imp Ne.symm)
  unfold getProfile ProfileGiven
  cases hg : AMap.get? os.reverse "profile" with
  | some v =>
    have hv := (get_iff hr).1 hg
    simp only [List.mem_reverse] at hv
    simp only [Option.getD_some]
    constructor
    · rintro rfl; exact .inl hv
    · rintro (hm | ⟨hn, _⟩)
      · have := (get_iff hr).2 (List.mem_reverse.2 hm)
        rw [hg] at this; cases this; rfl
      · exact absurd hv (hn v)
  | none =>
    have hv : ∀ v, ("profile", v) ∉ os := by
      intro v hm
      rw [(get_iff hr).2 (List.mem_reverse.2 hm)] at hg
      cases hg
    simp [hv, eq_comm]

theorem given_version {os : List (String × String)} (h : (os.map (·.1)).Nodup) {v : Option String} :
    getVersion os.reverse = v ↔ VersionGiven os v := by
  have hr : (os.reverse.map (·.1)).Nodup := by rw [List.map_reverse]; exact List.pairwise_reverse.2 (h.imp Ne.symm)
  unfold getVersion
  cases v with
  | some v => rw [get_iff hr]; simp [VersionGiven]
  | none =>
    unfold VersionGiven
    constructor
    · intro hg v hm
      rw [(get_iff hr).2 (List.mem_reverse.2 hm)] at hg
      cases hg
    · intro hn
      cases hg : AMap.get? os.reverse "version" with
      | none => rfl
      | some v => exact absurd (List.mem_reverse.1 ((get_iff hr).1 hg)) (hn v)

theorem options_of {name : String} {options : List String} (h : optionsOf name = some options) :
    ∀ n ∈ options, IsOption n := by
  unfold optionsOf at h
  split at h <;> cases h <;> simp [IsOption]

/-- A command with options that belong to it. -/
theorem command_iff {name : String} {os : List (String × String)} (h : (os.map (·.1)).Nodup) {a : Args} :
    (∃ options, optionsOf name = some options ∧ (∀ o ∈ os, o.1 ∈ options) ∧
      command name os.reverse = some a) ↔ Means os name a := by
  have none_ : ∀ os : List (String × String), (∀ o ∈ os, o.1 ∈ ([] : List String)) → os = [] := by
    intro os h
    cases os with
    | nil => rfl
    | cons o os => exact absurd (h o (by simp)) (by simp)
  constructor
  · rintro ⟨options, h1, h2, h3⟩
    unfold optionsOf at h1
    split at h1 <;> cases h1 <;> cases h3
    · exact .init (none_ _ h2)
    · exact .status (by simpa using h2) ((given_profile h).1 rfl)
    · exact .stage (by simpa using h2) ((given_profile h).1 rfl)
    · exact .reset (by simpa using h2) ((given_profile h).1 rfl)
    · exact .make (by simpa using h2) ((given_profile h).1 rfl) ((given_version h).1 rfl)
    · exact .up (by simpa using h2) ((given_profile h).1 rfl) ((given_version h).1 rfl)
    · exact .down (by simpa using h2) ((given_profile h).1 rfl) ((given_version h).1 rfl)
    · exact .clone (none_ _ h2)
    · exact .print (none_ _ h2)
    · exact .sync (by simpa using h2) ((given_profile h).1 rfl)
  · rintro (h1 | ⟨h1, h2⟩ | ⟨h1, h2⟩ | ⟨h1, h2⟩ | ⟨h1, h2, h3⟩ | ⟨h1, h2, h3⟩ | ⟨h1, h2, h3⟩ | h1 | h1 | ⟨h1, h2⟩)
    · subst h1; exact ⟨_, rfl, by simp, rfl⟩
    · exact ⟨_, rfl, by simpa using h1, by rw [command, (given_profile h).2 h2]⟩
    · exact ⟨_, rfl, by simpa using h1, by rw [command, (given_profile h).2 h2]⟩
    · exact ⟨_, rfl, by simpa using h1, by rw [command, (given_profile h).2 h2]⟩
    · exact ⟨_, rfl, by simpa using h1, by rw [command, (given_profile h).2 h2, (given_version h).2 h3]⟩
    · exact ⟨_, rfl, by simpa using h1, by rw [command, (given_profile h).2 h2, (given_version h).2 h3]⟩
    · exact ⟨_, rfl, by simpa using h1, by rw [command, (given_profile h).2 h2, (given_version h).2 h3]⟩
    · subst h1; exact ⟨_, rfl, by simp, rfl⟩
    · subst h1; exact ⟨_, rfl, by simp, rfl⟩
    · exact ⟨_, rfl, by simpa using h1, by rw [command, (given_profile h).2 h2]⟩

/-- Which command lines run which command. -/
theorem parse_iff {argv : List String} {a : Args} : parse argv = some a ↔ Line argv a := by
  unfold Line
  cases argv with
  | nil => simp [parse]
  | cons name rest =>
    rw [parse]
    constructor
    · intro h
      split at h
      · cases h
      · next options ho =>
        split at h
        · cases h
        · next found hf =>
          obtain ⟨os, given, last, h1, h2, h3, h4, h5, h6⟩ := (readOptions_iff (options_of ho)).1 hf
          rw [List.append_nil] at h6
          subst h6
          exact ⟨name, os, given, last, by rw [h1], h2, h3, h5,
            (command_iff h3).1 ⟨options, ho, fun o hm => (h4 o hm).1, h⟩⟩
    · rintro ⟨name', os, given, last, h1, h2, h3, h4, h5⟩
      cases h1
      obtain ⟨options, ho, hin, hc⟩ := (command_iff h3).2 h5
      have := (readOptions_iff (options_of ho) (found := []) (args := given ++ last) (m := os.reverse)).2
        ⟨os, given, last, rfl, h2, h3, fun o hm => ⟨hin o hm, rfl⟩, h4, by simp⟩
      rw [ho]
      simp only [this, hc]

end Cli
end Podo
