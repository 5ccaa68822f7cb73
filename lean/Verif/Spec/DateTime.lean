import Verif.Model.DateTime
/-
Dates and times: which values Python allows, when it takes two of them as equal, and the lexical forms of xsd:dateTime (XML Schema Part 2, 3.3.7).
-/
namespace Verif.Spec

/-- Leap years of the Gregorian calendar. -/
def leap (y : Nat) : Bool := y % 4 == 0 && (y % 100 != 0 || y % 400 == 0)

/-- The days of a month. -/
def daysIn (y m : Nat) : Nat :=
  if m = 2 then (if leap y then 29 else 28) else if m = 4 ∨ m = 6 ∨ m = 9 ∨ m = 11 then 30 else 31

/-- What `datetime.datetime(...)` allows; an offset is less than a day. -/
structure ValidDate (d : DateTime) : Prop where
  year : 1 ≤ d.year ∧ d.year ≤ 9999
  month : 1 ≤ d.month ∧ d.month ≤ 12
  day : 1 ≤ d.day ∧ d.day ≤ daysIn d.year d.month
  hour : d.hour ≤ 23
  minute : d.minute ≤ 59
  second : d.second ≤ 59
  micro : d.micro ≤ 999999
  offset : ∀ off, d.offset = some off → -86400000000 < off ∧ off < 86400000000

/-- The days before a year and before a month of it. -/
def daysBeforeYear : Nat → Nat
  | 0 => 0
  | y + 1 => daysBeforeYear y + if leap y then 366 else 365

def daysBeforeMonth (y : Nat) : Nat → Nat
  | 0 => 0
  | m + 1 => daysBeforeMonth y m + if m = 0 then 0 else daysIn y m

/-- The moment, in microseconds since the beginning of the calendar, by the clock of the value itself. -/
def clock (d : DateTime) : Int :=
  ((((daysBeforeYear d.year + daysBeforeMonth d.year d.month + d.day) * 24 + d.hour) * 60 + d.minute) * 60 + d.second) * 1000000 + d.micro

/-- `a == b` in Python: naive values by their clocks, aware values by the moment in UTC; a naive value equals no aware one. -/
def SameTime (a b : DateTime) : Prop :=
  match a.offset, b.offset with
  | none, none => clock a = clock b
  | some x, some y => clock a - x = clock b - y
  | _, _ => False

/-- A text of digits, and its value. -/
def Digits (s : PStr) : Prop := ∀ c ∈ s, 48 ≤ c ∧ c ≤ 57

def numOf (s : PStr) : Nat := s.foldl (fun acc c => acc * 10 + (c - 48)) 0

/-- Two digits. -/
def TwoDigits (s : PStr) (n : Nat) : Prop := s.length = 2 ∧ Digits s ∧ numOf s = n

/-- The time zone at the end of a lexical form, in minutes. -/
inductive XsdZone : PStr → Option Int → Prop
  | none : XsdZone [] none
  | utc : XsdZone [90] (some 0)
  | plus {hh mm h m} : TwoDigits hh h → TwoDigits mm m → m ≤ 59 → (h ≤ 13 ∨ h = 14 ∧ m = 0) → XsdZone ([43] ++ hh ++ [58] ++ mm) (some (60 * h + m))
  | minus {hh mm h m} : TwoDigits hh h → TwoDigits mm m → m ≤ 59 → (h ≤ 13 ∨ h = 14 ∧ m = 0) → XsdZone ([45] ++ hh ++ [58] ++ mm) (some (-(60 * h + m)))

/-- The fraction of a second, in microseconds (a fraction that is no whole number of them denotes none). -/
inductive XsdFraction : PStr → Option Nat → Prop
  | none : XsdFraction [] (some 0)
  | some {f us} : f ≠ [] → Digits f → numOf f * 1000000 = us * 10 ^ f.length → XsdFraction ([46] ++ f) (some us)
  | finer {f} : f ≠ [] → Digits f → (∀ us, numOf f * 1000000 ≠ us * 10 ^ f.length) → XsdFraction ([46] ++ f) none

/-- The year. -/
inductive XsdYear : PStr → Int → Prop
  | pos {s} : 4 ≤ s.length → Digits s → (4 < s.length → s.head? ≠ some 48) → XsdYear s (numOf s)
  | neg {s} : 4 ≤ s.length → Digits s → (4 < s.length → s.head? ≠ some 48) → XsdYear ([45] ++ s) (-(numOf s))

/-- The text is a lexical form of xsd:dateTime with these values: year, month, day, hour, minute, second, microseconds, zone. -/
def XsdDateTime (text : PStr) (y : Int) (mo d h mi s : Nat) (us : Option Nat) (zone : Option Int) : Prop :=
  ∃ Y M D H N S F Z, text = Y ++ [45] ++ M ++ [45] ++ D ++ [84] ++ H ++ [58] ++ N ++ [58] ++ S ++ F ++ Z ∧
    XsdYear Y y ∧ TwoDigits M mo ∧ TwoDigits D d ∧ TwoDigits H h ∧ TwoDigits N mi ∧ TwoDigits S s ∧ XsdFraction F us ∧ XsdZone Z zone ∧
    1 ≤ mo ∧ mo ≤ 12 ∧ 1 ≤ d ∧ d ≤ daysIn y.natAbs mo ∧ (h ≤ 23 ∨ h = 24 ∧ mi = 0 ∧ s = 0 ∧ us = some 0) ∧ mi ≤ 59 ∧ s ≤ 59

end Verif.Spec
