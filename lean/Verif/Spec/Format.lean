import Verif.Spec.Time

/-!
# Specification vocabulary: texts of durations

A text is a list of characters; numbers are written with Lean's own `Nat.toDigits 10`.
-/

namespace Chrono.Spec
open Chrono

/-- A unit of time: how it is written, and its length in nanoseconds. -/
structure TimeUnit where
  name : String
  nanos : Nat
  deriving DecidableEq

/-- The units, the largest first. A year is the mean Gregorian year (365.2425 days), a month a twelfth of it. -/
def timeUnits : List TimeUnit :=
  [⟨"y", 31556952 * 1000000000⟩, ⟨"mo", 2629746 * 1000000000⟩, ⟨"d", 86400 * 1000000000⟩, ⟨"h", 3600 * 1000000000⟩,
   ⟨"min", 60 * 1000000000⟩, ⟨"s", 1000000000⟩, ⟨"ms", 1000000⟩, ⟨"us", 1000⟩, ⟨"ns", 1⟩]

/-- A duration in words: how many of each unit. -/
abbrev Parts := List (Nat × TimeUnit)

/-- `2h 30min`: the counts with their units, separated by spaces. -/
def partsText (l : Parts) : List Char :=
  [' '].intercalate (l.map fun p => Nat.toDigits 10 p.1 ++ p.2.name.toList)

/-- The number of nanoseconds the words add up to. -/
def partsNanos (l : Parts) : Nat := (l.map fun p => p.1 * p.2.nanos).sum

/-- Positive counts, of distinct units, the largest first. -/
def Ordered (l : Parts) : Prop := (∀ p ∈ l, 0 < p.1) ∧ (l.map (·.2)).Sublist timeUnits

/-- What is expressed in units smaller than a given one is less than one of it: for example never 60 minutes or more
under the hour. -/
def Reduced (l : Parts) : Prop := ∀ u ∈ timeUnits, partsNanos (l.filter fun p => p.2.nanos < u.nanos) < u.nanos

/-- The decimal text of a whole number. -/
def intText (x : Int) : List Char := if x < 0 then '-' :: Nat.toDigits 10 x.natAbs else Nat.toDigits 10 x.natAbs

end Chrono.Spec
