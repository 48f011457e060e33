import Verif.Model.FwsmText
import Verif.Model.Text
/-!
# The section of a time range

The table of examples/render/tpl/static.jinja2:653-683 with the representations of aclObjects.py:988-1023.  Which time ranges have a section and their order are in `Acltk.Page`.  Left out: the row of `obj.description`, which is
always empty (no class of a time range has the attribute, and Jinja prints an undefined value as nothing).  Simplified: the names of the months are the English ones (`%B` with the C locale), the year is printed without leading
zeros (`%Y` of glibc), and the day before the end of a periodic range is printed as it was written.
-/
namespace Acltk.Cells
open Acltk Acltk.FwsmText

/-- `%H`, `%M`, `%d`, and the fields of `str(datetime.time)` (aclObjects.py:994-998, 1012, 1018). -/
def pad2 (n : Nat) : List Char := if n < 10 then '0' :: decText n else decText n

/-- `%H:%M` (aclObjects.py:996, 998) -/
def clockText (t : Time) : List Char := pad2 t.hour ++ ':' :: pad2 t.minute

/-- `str(datetime.time(hour, minute))` (aclObjects.py:1012, 1018): the seconds are shown, and are 0. -/
def isoTime (t : Time) : List Char := clockText t ++ [':', '0', '0']

/-- `%B` (aclObjects.py:996, 998) -/
def monthText (m : Nat) : List Char := (months.getD (m - 1) "").toList

/-- `strftime("%H:%M %d %B %Y")` (aclObjects.py:996, 998) -/
def dateText (d : Date) : List Char := clockText d.time ++ ' ' :: (pad2 d.day ++ ' ' :: (monthText d.month ++ ' ' :: decText d.year))

/-- `", ".join(self.startDays)` (aclObjects.py:1011) -/
def joinDays : List String → List Char
  | [] => []
  | [d] => d.toList
  | d :: l => d.toList ++ ',' :: ' ' :: joinDays l

/-- `repr` of a time range object (aclObjects.py:993-999, 1010-1019). -/
def rangeText : TimeObj → List Char
  | .absolute a b => "Absolute ".toList ++ ((a.map dateText).getD [] ++ '-' :: (b.map dateText).getD [])
  | .periodic ds a e b => "Periodic ".toList ++ ((joinDays ds ++ ' ' :: isoTime a) ++ '-' :: ((e.map String.toList).getD [] ++ ' ' :: isoTime b))

/-- A section: its anchor, its heading and its rows. -/
structure TimeSection where
  anchor : String
  heading : List Char
  rows : List (List Char)
  deriving DecidableEq

/-- The section of a time range (static.jinja2:667-682). -/
def timeSection : Item → Option TimeSection
  | .timeRange _ n l => some ⟨"time_range_" ++ n, n.toList, l.map rangeText⟩
  | _ => none

end Acltk.Cells
