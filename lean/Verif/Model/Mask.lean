import Verif.Model.Addr
import Verif.Model.Text
/-!
# Addresses and networks from text

`ipaddress.ip_address(text)`, `ipaddress.ip_network(f"{address}/{netmask}", strict=False)`
(aclObjects.py:388, 434-435, 567) as CPython 3.11 computes them, character by character.
Line numbers without a file name are those of `ipaddress.py`.
Not modelled: IPv6 scope ids (`%eth0`), which acltk's grammars do not accept.
-/
namespace Acltk

/-- `_parse_octet`, 1217-1247. -/
def parseOctet (s : List Char) : Option Nat :=
  if ¬ isDigits s then none
  else if s.length > 3 then none
  else if s ≠ ['0'] ∧ s.head? = some '0' then none
  else if Nat.ofDigitChars 10 s 0 > 255 then none
  else some (Nat.ofDigitChars 10 s 0)

/-- `_BaseV4._ip_int_from_string`, 1191-1214. -/
def parseV4 (s : List Char) : Option Nat :=
  match splitOn '.' s with
  | [a, b, c, d] =>
    match parseOctet a, parseOctet b, parseOctet c, parseOctet d with
    | some a, some b, some c, some d => some (((a * 256 + b) * 256 + c) * 256 + d)
    | _, _, _, _ => none
  | _ => none

/-- `_BaseV4._string_from_ip_int`, 1250-1260: `'.'.join(map(str, ip_int.to_bytes(4, 'big')))`. -/
def fmtV4 (n : Nat) : List Char :=
  joinWith '.' [decText (n / 2 ^ 24 % 256), decText (n / 2 ^ 16 % 256),
    decText (n / 2 ^ 8 % 256), decText (n % 256)]

/-- `_count_righthand_zero_bits`, 184-197: `min(bits, (~number & (number-1)).bit_length())`. -/
def countRightZeros (number bits : Nat) : Nat :=
  if number = 0 then bits else min bits (bitLength (andNot (number - 1) number))

/-- `_prefix_from_ip_int`, 445-467; `none` is the ValueError. -/
def prefixFromInt (v : Ver) (ip : Nat) : Option Nat :=
  let tz := countRightZeros ip v.width
  let plen := v.width - tz
  if ip >>> tz ≠ 1 <<< plen - 1 then none else some plen

/-- `_prefix_from_prefix_string`, 475-498. -/
def prefixFromPrefixString (v : Ver) (s : List Char) : Option Nat :=
  match intOfDigits s with
  | none => none
  | some n => if n ≤ v.width then some n else none

/-- `_prefix_from_ip_string`, 500-530: netmask reading first, then the inverted hostmask. -/
def prefixFromIpString (s : List Char) : Option Nat :=
  match parseV4 s with
  | none => none
  | some ip =>
    match prefixFromInt .v4 ip with
    | some p => some p
    | none => prefixFromInt .v4 (ip ^^^ Ver.v4.allOnes)

/-- `_make_netmask`: IPv4 1162-1188 (prefix length, netmask or hostmask), IPv6 1632-1651
(prefix length only). The cache (`_netmask_cache`) returns what was computed before for the same
text and is not modelled. -/
def makeNetmask (v : Ver) (s : List Char) : Option Nat :=
  match v with
  | .v4 =>
    match prefixFromPrefixString .v4 s with
    | some p => some p
    | none => prefixFromIpString s
  | .v6 => prefixFromPrefixString .v6 s

/-- `_HEX_DIGITS` membership (1627). -/
def isHexDigit (c : Char) : Bool :=
  c.isDigit || ('a' ≤ c && c ≤ 'f') || ('A' ≤ c && c ≤ 'F')

/-- Value of a hexadecimal digit. -/
def hexVal (c : Char) : Nat :=
  if c.isDigit then c.toNat - '0'.toNat
  else if 'a' ≤ c && c ≤ 'f' then c.toNat - 'a'.toNat + 10
  else c.toNat - 'A'.toNat + 10

/-- `_parse_hextet`, 1752-1776; `int('', 16)` raises ValueError. -/
def parseHextet (s : List Char) : Option Nat :=
  if ¬ s.all isHexDigit then none
  else if s.length > 4 then none
  else if s.isEmpty then none
  else some (s.foldl (fun acc c => acc * 16 + hexVal c) 0)

/-- `'%x' % n`. -/
def hexText (n : Nat) : List Char := Nat.toDigits 16 n

/-- Parsing a run of parts: `for i in …: ip_int <<= 16; ip_int |= parse_hextet(parts[i])`,
1739-1748. -/
def parseHextets : Nat → List (List Char) → Option Nat
  | acc, [] => some acc
  | acc, p :: ps =>
    match parseHextet p with
    | none => none
    | some h => parseHextets (acc * 2 ^ 16 + h) ps

/-- Indices in `range(1, len(parts)-1)` with an empty part (1699-1706), as positions. -/
def emptyInner (parts : List (List Char)) : List Nat :=
  (List.range parts.length).filter
    (fun i => decide (1 ≤ i ∧ i + 1 < parts.length) && (parts.getD i []).isEmpty)

/-- The part of `_BaseV6._ip_int_from_string` after the IPv4 suffix has been replaced, 1687-1750. -/
def parseV6Parts (parts : List (List Char)) : Option Nat :=
  if parts.length > 9 then none
  else
    let first := parts.head?.getD []
    let last := parts.getLast?.getD []
    match emptyInner parts with
    | _ :: _ :: _ => none                             -- more than one '::'
    | [skip] =>
      let hi0 := skip
      let lo0 := parts.length - skip - 1
      let hi := if first.isEmpty then hi0 - 1 else hi0
      let lo := if last.isEmpty then lo0 - 1 else lo0
      if first.isEmpty ∧ hi ≠ 0 then none             -- ^: requires ^::
      else if last.isEmpty ∧ lo ≠ 0 then none         -- :$ requires ::$
      else if hi + lo > 7 then none                   -- parts_skipped < 1
      else match parseHextets 0 (parts.take hi) with
        | none => none
        | some x => parseHextets (x * 2 ^ (16 * (8 - (hi + lo)))) (parts.drop (parts.length - lo))
    | [] =>
      if parts.length ≠ 8 then none
      else if first.isEmpty ∨ last.isEmpty then none
      else parseHextets 0 parts

/-- `_BaseV6._ip_int_from_string`, 1654-1750. -/
def parseV6 (s : List Char) : Option Nat :=
  let parts := splitOn ':' s
  if parts.length < 3 then none
  else if '.' ∈ parts.getLast?.getD [] then
    match parseV4 (parts.getLast?.getD []) with
    | none => none
    | some ip => parseV6Parts (parts.dropLast ++ [hexText (ip / 2 ^ 16 % 2 ^ 16), hexText (ip % 2 ^ 16)])
  else parseV6Parts parts

/-- The scan of `_compress_hextets`, 1793-1811: state is (index, current start, current length,
best start, best length); the start `-1` is represented by the length being 0. -/
def bestRun : List Bool → Nat → Nat → Nat → Nat → Nat → Nat × Nat
  | [], _, _, _, bs, bl => (bs, bl)
  | z :: zs, i, cs, cl, bs, bl =>
    if z then
      let cs' := if cl = 0 then i else cs
      let cl' := cl + 1
      if cl' > bl then bestRun zs (i + 1) cs' cl' cs' cl' else bestRun zs (i + 1) cs' cl' bs bl
    else bestRun zs (i + 1) 0 0 bs bl

/-- `_compress_hextets`, 1779-1824. -/
def compressHextets (h : List (List Char)) : List (List Char) :=
  let r := bestRun (h.map (· == ['0'])) 0 0 0 0 0
  if r.2 > 1 then
    (if r.1 = 0 then [[]] else []) ++ h.take r.1 ++ [[]] ++ h.drop (r.1 + r.2) ++
      (if r.1 + r.2 = h.length then [[]] else [])
  else h

/-- The eight 16-bit groups of a 128-bit integer, most significant first
(`'%032x' % ip_int` cut into fours, 1847-1848). -/
def hextets (n : Nat) : List Nat :=
  [n / 2 ^ 112 % 2 ^ 16, n / 2 ^ 96 % 2 ^ 16, n / 2 ^ 80 % 2 ^ 16, n / 2 ^ 64 % 2 ^ 16,
   n / 2 ^ 48 % 2 ^ 16, n / 2 ^ 32 % 2 ^ 16, n / 2 ^ 16 % 2 ^ 16, n % 2 ^ 16]

/-- `_BaseV6._string_from_ip_int`, 1826-1852. -/
def fmtV6 (n : Nat) : List Char := joinWith ':' (compressHextets ((hextets n).map hexText))

/-- `str(address)` of an IPv4Address or IPv6Address. -/
def Addr.text (a : Addr) : List Char :=
  match a.ver with
  | .v4 => fmtV4 a.ip
  | .v6 => fmtV6 a.ip

/-- `ipaddress.ip_address(text)`, 28-54: IPv4 first, then IPv6, else ValueError.  A text with a
`/` is rejected by both (1317-1318, 1957-1958). -/
def ipAddress (s : List Char) : Py Addr :=
  if '/' ∈ s then .error .value
  else match parseV4 s with
    | some n => .ok ⟨.v4, n⟩
    | none =>
      match parseV6 s with
      | some n => .ok ⟨.v6, n⟩
      | none => .error .value

/-- `IPv4Network.__init__` (1487 ff.) / `IPv6Network.__init__` (2225 ff.) with `strict=False`
on the two parts of the text: parse the address, parse the mask, clear the host bits. -/
def netOfParts (v : Ver) (addr mask : List Char) : Option Net :=
  match (match v with | .v4 => parseV4 addr | .v6 => parseV6 addr) with
  | none => none
  | some ip =>
    match makeNetmask v mask with
    | none => none
    | some p => some ⟨v, ip &&& v.maskOf p, p⟩

/-- `_split_optional_netmask` (156-161) and `_split_addr_prefix` (534-552): one `/` at most;
without a `/` the prefix is the whole width. -/
def netOfText (v : Ver) (s : List Char) : Option Net :=
  match splitOn '/' s with
  | [a] => netOfParts v a (decText v.width)
  | [a, m] => netOfParts v a m
  | _ => none

/-- `ipaddress.ip_network(text, strict=False)`, 57-84: IPv4 first, then IPv6, else ValueError. -/
def ipNetwork (s : List Char) : Py Net :=
  match netOfText .v4 s with
  | some n => .ok n
  | none =>
    match netOfText .v6 s with
    | some n => .ok n
    | none => .error .value

/-- `Network.__init__`, aclObjects.py:387-392: `ip_network(f"{address}/{netmask}", strict=False)`.
Both arguments are texts (or are formatted by the f-string). -/
def mkNetwork (address netmask : List Char) : Py Net := ipNetwork (address ++ '/' :: netmask)

end Acltk
