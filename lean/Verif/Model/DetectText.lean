import Verif.Model.Detect
import Verif.Model.IosConfig
/-!
# Auto-detection with the parsers themselves

`ACLConfig.fromString` (aclObjects.py:1255-1278) with `fwsmConfig._parse` (fwsmObjects.py:18-37) and `iosConfig._parse`
(iosObjects.py:51-74) as modelled from their grammars; the parser for pfSense is a parameter.
-/
namespace Acltk.DetectText
open Acltk Acltk.Lookup Acltk.Detect

/-- A configuration object: what was parsed, and from which kind of text; `C` for the kind that is not modelled here. -/
inductive Cfg (C : Type) where
  | fwsm (items : List FwsmText.Item)
  | ios (items : List IosText.Item)
  | pfsense (c : C)

/-- `fwsmConfig._parse` (fwsmObjects.py:18-37): a text that is refused, or an action that raises, is an exception. -/
def fwsmParser {C : Type} (g : Guard) (text : String) : Outcome (Cfg C) Unit :=
  match FwsmText.parseFile g text.toList with
  | .ok items _ => .config (.fwsm items)
  | .fail => .exception ()
  | .raise _ => .exception ()

/-- `iosConfig._parse` (iosObjects.py:51-74) -/
def iosParser {C : Type} (g : Guard) (text : String) : Outcome (Cfg C) Unit :=
  match IosText.parseFile g text.toList with
  | .ok items _ => .config (.ios items)
  | .fail => .exception ()
  | .raise _ => .exception ()

/-- `pfsenseConfig._parse` -/
def pfsenseParser {C : Type} (p : String → Outcome C Unit) (text : String) : Outcome (Cfg C) Unit :=
  match p text with
  | .config c => .config (.pfsense c)
  | .exception e => .exception e
  | .baseException e => .baseException e

/-- `ACLConfig.fromString(data)` (aclObjects.py:1255-1278) -/
def detect {C : Type} (g : Guard) (pfsense : String → Outcome C Unit) (data : String) : Outcome (Cfg C) Unit :=
  fromString () (fwsmParser g) (iosParser g) (pfsenseParser pfsense) data

/-- The rules of the configuration (`aclConfig.rules`) by their identities, and what is behind them; those of the kind not modelled
here are given by `R`. -/
def rules {C : Type} (R : C → List Oid × (Oid → Entry)) : Cfg C → List Oid × (Oid → Entry)
  | .fwsm items => ((Config.build (CafFilter.agName items) (fun _ => []) (CafFilter.number 0 items)).rules, CafFilter.heap items)
  | .ios items => ((IosConfig.build items).base.rules, IosConfig.heap items)
  | .pfsense c => R c

/-- examples/caf-filter.py:8-12, for any configuration; `none` is a text that is refused or a call that is interrupted. -/
def main {C : Type} (g : Guard) (pfsense : String → Outcome C Unit) (R : C → List Oid × (Oid → Entry)) (n fuel : Nat)
    (filter : Text) (config : String) : Option (Py (List Oid)) :=
  match CafText.parse g n filter with
  | .fail => none
  | .raise e => some (.error e)
  | .ok e _ =>
    match detect g pfsense config with
    | .config c => some (Caf.run fuel (rules R c).2 (rules R c).1 e)
    | .exception _ => none
    | .baseException _ => none

end Acltk.DetectText
