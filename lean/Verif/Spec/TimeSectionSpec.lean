import Verif.Model.TimeSection
import Verif.Spec.SectionSpec
/-!
# Specification for C122: what somebody who sees the section of a time range takes it for
-/
namespace Acltk.Cells
open Acltk Acltk.FwsmText

/-- Digits that denote the number. -/
structure Num (s : List Char) (n : Nat) : Prop where
  digits : ∀ c ∈ s, c.isDigit = true
  value : Nat.ofDigitChars 10 s 0 = n

/-- `08:30` -/
structure ReadsClock (s : List Char) (t : Time) : Prop where
  parts : ∃ h m, s = h ++ ':' :: m ∧ Num h t.hour ∧ Num m t.minute

/-- The names of the months. -/
def calendar : List (String × Nat) :=
  [("January", 1), ("February", 2), ("March", 3), ("April", 4), ("May", 5), ("June", 6), ("July", 7), ("August", 8), ("September", 9), ("October", 10), ("November", 11), ("December", 12)]

/-- `08:30 01 January 2020` -/
structure ReadsDate (s : List Char) (d : Date) : Prop where
  parts : ∃ c dd y : List Char, ∃ m : String, s = c ++ ' ' :: (dd ++ ' ' :: (m.toList ++ ' ' :: y)) ∧ ReadsClock c d.time ∧ Num dd d.day ∧ (m, d.month) ∈ calendar ∧ Num y d.year

/-- No text is no date. -/
inductive ReadsMaybe : List Char → Option Date → Prop
  | none : ReadsMaybe [] none
  | some {s d} : ReadsDate s d → ReadsMaybe s (some d)

/-- A day: one of the week, or a word for several. -/
def dayNames : List String := ["Monday", "Tuesday", "Wednesday", "Thursday", "Friday", "Saturday", "Sunday", "weekdays", "weekend", "daily"]

/-- `Monday, Friday` -/
inductive ReadsDays : List Char → List String → Prop
  | one {d} : d ∈ dayNames → ReadsDays d.toList [d]
  | more {d s l} : d ∈ dayNames → ReadsDays s l → ReadsDays (d.toList ++ ',' :: ' ' :: s) (d :: l)

/-- No text is no day. -/
inductive ReadsDay : List Char → Option String → Prop
  | none : ReadsDay [] none
  | some {d} : d ∈ dayNames → ReadsDay d.toList (some d)

/-- A row: `Absolute START-END` or `Periodic DAYS START:00-DAY END:00`. -/
inductive ReadsRange : List Char → TimeObj → Prop
  | absolute {s e a b} : ReadsMaybe s a → ReadsMaybe e b → ReadsRange ("Absolute ".toList ++ (s ++ '-' :: e)) (.absolute a b)
  | periodic {ds s d e l a x b} : ReadsDays ds l → ReadsClock s a → ReadsDay d x → ReadsClock e b →
      ReadsRange ("Periodic ".toList ++ ((ds ++ ' ' :: (s ++ ":00".toList)) ++ '-' :: (d ++ ' ' :: (e ++ ":00".toList)))) (.periodic l a x b)

/-- The anchor and the heading tell the name, each row a range. -/
structure ReadsTime (s : TimeSection) (name : String) (ranges : List TimeObj) : Prop where
  anchor : s.anchor = "time_range_" ++ name
  heading : s.heading = name.toList
  rows : Each ReadsRange s.rows ranges

end Acltk.Cells
