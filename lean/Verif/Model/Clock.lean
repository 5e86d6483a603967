import Verif.Model.Program
/-
Model of the local time in the names that `make` gives: /repo/src/cmd/make.rs:23.
-/
namespace Podo

/-- A local time, to the second, as /repo/src/cmd/make.rs:23 writes it.  Simplified: years of four digits, and any two digits for the rest. -/
structure LocalTime where
  year : Fin 10000
  month : Fin 100
  day : Fin 100
  hour : Fin 100
  minute : Fin 100
  second : Fin 100
deriving DecidableEq, Repr

/-- The last digit of a number, as chrono writes it (/repo/src/cmd/make.rs:23). -/
def lastDigit (n : Nat) : Char := Char.ofNat (48 + n % 10)

/-- The last two digits of a number, zeros included: `%m`, `%d`, `%H`, `%M`, `%S` (/repo/src/cmd/make.rs:23). -/
def twoDigits (n : Nat) : List Char := [lastDigit (n / 10), lastDigit n]

/-- `chrono::Local::now().format("%Y%m%d_%H%M%S")` (/repo/src/cmd/make.rs:23), as characters. -/
def LocalTime.chars (t : LocalTime) : List Char :=
  twoDigits (t.year / 100) ++ (twoDigits t.year ++ (twoDigits t.month ++ (twoDigits t.day ++ (['_'] ++
    (twoDigits t.hour ++ (twoDigits t.minute ++ twoDigits t.second))))))

/-- `chrono::Local::now().format("%Y%m%d_%H%M%S")` (/repo/src/cmd/make.rs:23). -/
def LocalTime.text (t : LocalTime) : String := String.ofList t.chars

end Podo
