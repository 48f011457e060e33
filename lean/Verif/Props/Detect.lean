import Verif.Model.Detect
/-!
# C41: auto-detection
-/
namespace Acltk.Detect
open Acltk

/-- A parser raises an ordinary exception on this text. -/
def Fails {C E : Type} (p : String → Outcome C E) (t : String) : Prop := ∃ e, p t = .exception e

/-- **C41.** For any three parsers and any text: the result is a configuration `c` iff one of the
parsers, called on the text plus one line feed, returns `c` and the ones before it fail; it is an
ordinary exception iff all three fail, and then it is the ValueError; other interruptions pass
through from the first parser that does not fail. -/
theorem C41_auto_detection {C E : Type} (ve : E) (fwsm ios pfsense : String → Outcome C E)
    (data : String) :
    let t := data ++ "\n"
    let r := fromString ve fwsm ios pfsense data
    (∀ c, r = .config c ↔ fwsm t = .config c ∨ (Fails fwsm t ∧ ios t = .config c) ∨
      (Fails fwsm t ∧ Fails ios t ∧ pfsense t = .config c)) ∧
    ((∃ e, r = .exception e) ↔ Fails fwsm t ∧ Fails ios t ∧ Fails pfsense t) ∧
    (∀ e, r = .exception e → e = ve) ∧
    (∀ e, r = .baseException e ↔ fwsm t = .baseException e ∨ (Fails fwsm t ∧ ios t = .baseException e) ∨
      (Fails fwsm t ∧ Fails ios t ∧ pfsense t = .baseException e)) := by
  simp only [fromString, tryParsers, Fails]
  cases h1 : fwsm (data ++ "\n") <;> cases h2 : ios (data ++ "\n") <;>
    cases h3 : pfsense (data ++ "\n") <;> simp [eq_comm]

/-- All three kinds of result occur. -/
theorem C41_sample :
    fromString (C := Nat) (E := Nat) 0 (fun _ => .exception 1)
      (fun t => if t = "x\n" then .config 7 else .exception 2) (fun _ => .exception 3) "x" = .config 7 ∧
    fromString (C := Nat) (E := Nat) 0 (fun _ => .exception 1) (fun _ => .exception 2)
      (fun _ => .exception 3) "x" = .exception 0 := by
  decide +kernel

end Acltk.Detect
