import Mathlib.Algebra.BigOperators.Intervals
import Verif.Model.Time
/-!
# Calendar specification

Dates by counting: add up the lengths of all earlier years and months. No formula of the model is
used here except the record of fields.
-/
namespace Verif.Spec

/-- Gregorian leap year. -/
def leap (y : ℕ) : Prop := 4 ∣ y ∧ (100 ∣ y → 400 ∣ y)

open Classical in
/-- Days in year `y`. -/
noncomputable def yearLen (y : ℕ) : ℕ := if leap y then 366 else 365

open Classical in
/-- Days in month `m` of year `y`. -/
noncomputable def monthLen (y m : ℕ) : ℕ :=
  if m = 2 then (if leap y then 29 else 28) else if m = 4 ∨ m = 6 ∨ m = 9 ∨ m = 11 then 30 else 31

/-- Days from 1 January of year 1 (day 1) to the date, by counting. -/
noncomputable def dayNumber (y m d : ℕ) : ℕ :=
  (∑ k ∈ Finset.Ico 1 y, yearLen k) + (∑ k ∈ Finset.Ico 1 m, monthLen y k) + d

/-- A real calendar instant of years 1 to 9999. -/
def ValidTime (t : DateTime) : Prop :=
  1 ≤ t.year ∧ t.year ≤ 9999 ∧ 1 ≤ t.month ∧ t.month ≤ 12 ∧ 1 ≤ t.day ∧ t.day ≤ monthLen t.year t.month ∧
  t.hour < 24 ∧ t.minute < 60 ∧ t.second < 60 ∧ t.micro < 1000000

/-- Whole seconds since the start of day 0. -/
noncomputable def seconds (t : DateTime) : ℤ :=
  (dayNumber t.year t.month t.day : ℤ) * 86400 + t.hour * 3600 + t.minute * 60 + t.second

/-- Microseconds since the start of day 0. -/
noncomputable def instant (t : DateTime) : ℤ := seconds t * 1000000 + t.micro

/-- Total seconds of a timedelta. -/
def total (d : TimeDelta) : ℤ := d.days * 86400 + d.seconds

/-- Largest representable number of whole days in a timedelta. -/
def maxDays : ℤ := 999999999

/-- A total number of seconds a timedelta can hold. -/
def inRange (s : ℤ) : Prop := -maxDays * 86400 ≤ s ∧ s < (maxDays + 1) * 86400

end Verif.Spec
