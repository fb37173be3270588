import Verif.Model.DateTime
import Verif.Spec.Time

/-!
# Vocabulary for dates and clocks
-/

namespace Chrono.Spec

/-- The dates of chrono: within its calendar, the nanoseconds within the (possibly leap) second. -/
def ChronoDate (d : DateTime) : Prop :=
  DT_MIN ≤ d.secs ∧ d.secs ≤ DT_MAX ∧ 0 ≤ d.nanos ∧
    (d.nanos < 1000000000 ∨ d.nanos < 2000000000 ∧ d.secs % 60 = 59)

/-- Nanoseconds since 1970-01-01 00:00:00 UTC. -/
def nanosOf (d : DateTime) : Int := d.secs * 1000000000 + d.nanos

/-- A reading of the system clock, in seconds and nanoseconds since 1970. -/
def Clock (sec ns : Int) : Prop := 0 ≤ sec ∧ sec < 18446744073709551616 ∧ 0 ≤ ns ∧ ns < 1000000000

/-- the number of days of a year of the (proleptic) Gregorian calendar -/
def yearDays (y : Int) : Int := if y % 4 = 0 ∧ (y % 100 ≠ 0 ∨ y % 400 = 0) then 366 else 365

/-- the number of days of `n` years from the first day of the year `y` -/
def daysOfYears (y : Int) : Nat → Int
  | 0 => 0
  | n + 1 => daysOfYears y n + yearDays (y + n)

instance (d : DateTime) : Decidable (ChronoDate d) := inferInstanceAs (Decidable (_ ∧ _))
instance (a b : Int) : Decidable (Clock a b) := inferInstanceAs (Decidable (_ ∧ _))

end Chrono.Spec
