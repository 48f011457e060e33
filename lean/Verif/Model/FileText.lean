import Verif.Model.ConfigFilter
/-!
# Configurations and filters from files

`ACLConfig.fromFile`/`fromPath` (aclObjects.py:1279-1289) and `cafBlock.fromFile`/`fromPath` (cafObjects.py:52-62): the bytes of the file,
opened with "rb", are decoded with `utf-8-sig` and handed to `fromString`.
-/
namespace Acltk.FileText
open Acltk Acltk.Lookup Acltk.Detect

/-- A continuation byte, 10xxxxxx. -/
def isCont (b : UInt8) : Bool := 0x80 ≤ b.toNat && b.toNat < 0xc0

/-- The character with that code, which the callers keep inside the range of characters. -/
def chr (n : Nat) : Option Char :=
  if h : n.isValidChar then some (Char.ofNatAux n h) else none

/-- One step of `codecs.utf_8_decode(input, "strict", True)` (called by encodings/utf_8_sig.py:18-24; CPython 3.11,
Objects/stringlib/codecs.h, utf8_decode): the first character and the bytes behind it; `none` is UnicodeDecodeError.
Overlong forms, surrogates and codes above U+10FFFF are refused. -/
def decodeOne : List UInt8 → Option (Char × List UInt8)
  | [] => none
  | a :: r =>
    if a.toNat < 0x80 then (chr a.toNat).map (·, r)
    else if a.toNat < 0xc2 then none
    else if a.toNat < 0xe0 then
      match r with
      | b :: r =>
        if isCont b then (chr ((a.toNat - 0xc0) * 64 + (b.toNat - 0x80))).map (·, r) else none
      | _ => none
    else if a.toNat < 0xf0 then
      match r with
      | b :: c :: r =>
        if isCont b && isCont c && !(a.toNat == 0xe0 && b.toNat < 0xa0) && !(a.toNat == 0xed && 0xa0 ≤ b.toNat) then
          (chr ((a.toNat - 0xe0) * 4096 + (b.toNat - 0x80) * 64 + (c.toNat - 0x80))).map (·, r)
        else none
      | _ => none
    else if a.toNat < 0xf5 then
      match r with
      | b :: c :: d :: r =>
        if isCont b && isCont c && isCont d && !(a.toNat == 0xf0 && b.toNat < 0x90) && !(a.toNat == 0xf4 && 0x90 ≤ b.toNat) then
          (chr ((a.toNat - 0xf0) * 262144 + (b.toNat - 0x80) * 4096 + (c.toNat - 0x80) * 64 + (d.toNat - 0x80))).map (·, r)
        else none
      | _ => none
    else none

theorem decodeOne_length {bs : List UInt8} {c : Char} {r : List UInt8} (h : decodeOne bs = some (c, r)) : r.length < bs.length := by
  cases bs with
  | nil => simp [decodeOne] at h
  | cons a r' =>
    unfold decodeOne at h
    dsimp only at h
    have key : ∀ {o : Option Char} {x : List UInt8}, o.map (·, x) = some (c, r) → x = r := by
      intro o x h
      cases o <;> simp at h
      exact h.2
    by_cases h1 : a.toNat < 0x80
    · rw [if_pos h1] at h; rw [← key h]; simp
    rw [if_neg h1] at h
    by_cases h2 : a.toNat < 0xc2
    · rw [if_pos h2] at h; cases h
    rw [if_neg h2] at h
    by_cases h3 : a.toNat < 0xe0
    · rw [if_pos h3] at h
      match r', h with
      | b :: r', h =>
        simp only at h
        split at h
        · rw [← key h]; simp; omega
        · cases h
    rw [if_neg h3] at h
    by_cases h4 : a.toNat < 0xf0
    · rw [if_pos h4] at h
      match r', h with
      | b :: d :: r', h =>
        simp only at h
        split at h
        · rw [← key h]; simp; omega
        · cases h
    rw [if_neg h4] at h
    by_cases h5 : a.toNat < 0xf5
    · rw [if_pos h5] at h
      match r', h with
      | b :: d :: e :: r', h =>
        simp only at h
        split at h
        · rw [← key h]; simp; omega
        · cases h
    rw [if_neg h5] at h
    cases h

/-- `codecs.utf_8_decode(input, "strict", True)` (encodings/utf_8_sig.py:23) -/
def utf8Decode (bs : List UInt8) : Option (List Char) :=
  match bs with
  | [] => some []
  | a :: r =>
    match _h : decodeOne (a :: r) with
    | none => none
    | some (c, r') =>
      match utf8Decode r' with
      | none => none
      | some t => some (c :: t)
termination_by bs.length
decreasing_by exact decodeOne_length _h

/-- `codecs.BOM_UTF8` -/
def bom : List UInt8 := [0xef, 0xbb, 0xbf]

/-- `data.decode("utf-8-sig")` (encodings/utf_8_sig.py:18-24): a byte order mark at the beginning is skipped, once. -/
def utf8Sig (bs : List UInt8) : Option (List Char) :=
  utf8Decode (if bs.take 3 = bom then bs.drop 3 else bs)

/-- `ACLConfig.fromFile(f)` (aclObjects.py:1279-1283): UnicodeDecodeError leaves the call before any parser is tried. -/
def configFromFile {C : Type} (g : Guard) (pfsense : String → Outcome C Unit) (bs : List UInt8) : Outcome (DetectText.Cfg C) Unit :=
  match utf8Sig bs with
  | none => .exception ()
  | some t => DetectText.detect g pfsense (String.ofList t)

/-- `cafBlock.fromFile(f)` (cafObjects.py:52-56) -/
def cafFromFile (g : Guard) (n : Nat) (bs : List UInt8) : Peg.Res Caf.Expr :=
  match utf8Sig bs with
  | none => .fail
  | some t => CafText.parse g n t

/-- examples/caf-filter.py:8-12 with the two files; `none` is a file that is refused. -/
def main {C : Type} (g : Guard) (pfsense : String → Outcome C Unit) (R : C → List Oid × (Oid → Entry)) (n fuel : Nat)
    (filter config : List UInt8) : Option (Py (List Oid)) :=
  match cafFromFile g n filter with
  | .fail => none
  | .raise e => some (.error e)
  | .ok e _ =>
    match configFromFile g pfsense config with
    | .config c => some (Caf.run fuel (DetectText.rules R c).2 (DetectText.rules R c).1 e)
    | .exception _ => none
    | .baseException _ => none

/-- examples/render/static.py:37, 48-49 with the two files. -/
def select {C : Type} (g : Guard) (pfsense : String → Outcome C Unit) (P : C → Caf.Expr → Py (List Oid)) (n fuel : Nat)
    (filter config : List UInt8) : Option (Py (List Oid)) :=
  match configFromFile g pfsense config with
  | .exception _ => none
  | .baseException _ => none
  | .config c =>
    match cafFromFile g n filter with
    | .fail => none
    | .raise e => some (.error e)
    | .ok e _ =>
      match c with
      | .fwsm items => some (ConfigFilter.ofFwsm fuel items e)
      | .ios items => some (ConfigFilter.ofIos fuel items e)
      | .pfsense c => some (P c e)

end Acltk.FileText
