import Verif.Model.Py
/-!
# `ACLConfig.fromString` and the auto-detection
-/
namespace Acltk.Detect
open Acltk

/-- How a call of a parser ends: a configuration, an `Exception`, or a `BaseException` that is not an
`Exception` (KeyboardInterrupt, SystemExit), which `except Exception` does not catch. -/
inductive Outcome (C E : Type) where
  | config (c : C)
  | exception (e : E)
  | baseException (e : E)
  deriving DecidableEq, Repr

/-- The loop of `ACLConfig._parse`, aclObjects.py:1264-1269; running off the end is
`ValueError("Invalid Config?")`, line 1270. -/
def tryParsers {C E : Type} (valueError : E) :
    List (String → Outcome C E) → String → Outcome C E
  | [], _ => .exception valueError
  | p :: ps, data =>
    match p data with
    | .config c => .config c
    | .exception _ => tryParsers valueError ps data
    | .baseException e => .baseException e

/-- `ACLConfig.fromString(data)`, aclObjects.py:1272-1278 with 1255-1270: the three parsers in the
order FWSM/ASA, IOS, pfSense, on the text with a line feed appended. -/
def fromString {C E : Type} (valueError : E) (fwsm ios pfsense : String → Outcome C E)
    (data : String) : Outcome C E :=
  tryParsers valueError [fwsm, ios, pfsense] (data ++ "\n")

end Acltk.Detect
