import Verif.Model.Iface
import Verif.Model.Rule
import Verif.Model.AclText
/-!
# NAT commands (`aclSemantics.network_object_nat`, `object_type`, `fwsmSemantics.nat`)

The input is the parse tree of one command.  Network objects and groups are values of `Host`; the
keyword `interface` stands for itself until it is replaced.
-/
namespace Acltk.NatCmd
open Acltk

/-- A port of a service: a `Port` or `PortRange` of a service object, or the word of an object NAT line, which
is stored as it is. -/
inductive PortRef where
  | word (w : String)
  | cond (v : AclText.PortVal)
  deriving DecidableEq, Repr

/-- `Service`/`ServiceObject` (aclObjects.py:681-701). -/
structure Svc where
  name : Option String := none
  protocol : String
  src : Option PortRef
  dst : Option PortRef
  icmpType : Option String := none
  icmpCode : Option String := none
  deriving DecidableEq, Repr

/-- What the commands read of an `Interface`. -/
structure IfRef where
  alias : String
  nameif : Option String
  deriving DecidableEq, Repr

/-- `iface.nameif or iface.alias` -/
def IfRef.label (i : IfRef) : String :=
  match i.nameif with
  | some n => if n = "" then i.alias else n
  | none => i.alias

/-- The node of a NAT side: a host, or the string "interface". -/
inductive Node' where
  | host (h : Host)
  | interface

/-- `NATMappedSourceFallback` (aclObjects.py:186-189).  `interface`: `none` is None, `some none` the
keyword "interface", `some (some n)` a `NetworkInterface` named `n`. -/
structure Fallback where
  interface : Option (Option String)
  ipv6 : Bool

/-- `NATReal` (aclObjects.py:128-133); a missing source or destination is None. -/
structure Real where
  iface : String
  src : Option Node'
  dst : Option Node'
  service : Option Svc

/-- `NATMapped` (aclObjects.py:168-180) with its `NATMappedSource` (type, node, fallback). -/
structure Mapped where
  iface : String
  type : Option String
  src : Option Node'
  fallback : Option Fallback
  dst : Option Node'
  service : Option Svc

/-- `NATObject` (aclObjects.py:192-205); `options` are the keys of the dictionary, in insertion
order. -/
structure Nat' where
  real : Real
  mapped : Mapped
  description : Option String
  options : List String

/-- `options[k] = True` on the list of keys. -/
def addKey (l : List String) (k : String) : List String := if k ∈ l then l else l ++ [k]

/-- The keyword is replaced by the interface of the side. -/
def subst (label : String) : Node' → Node'
  | .interface => .host (.iface label)
  | .host h => .host h

/-! ## object NAT -/

/-- `network_object_nat_service`, aclSemantics.py:484-488 -/
inductive ObjService where
  | dns
  | service (protocol real mapped : String)
  deriving DecidableEq, Repr

/-- `nat (real,mapped) type mapped [service] options` inside a network object (acl.bnf:276-279);
`mapped` is the `NATMappedSource` made by `network_nat_mapped` (aclSemantics.py:410-429). -/
structure ObjNat where
  real : IfRef
  mapped : IfRef
  type : String
  node : Node'
  fallback : Option Fallback
  service : Option ObjService
  options : List String

/-- `Service(Protocol(ast.protocol), ast.real, ast.mapped)` -/
def ObjService.svc : ObjService → Option Svc
  | .dns => none
  | .service p r m => some { protocol := p, src := some (.word r), dst := some (.word m) }

/-- `network_object_nat`, aclSemantics.py:431-480.  `real["service"]` is computed and not used: both
sides get `mapped["service"]`. -/
def networkObjectNat (a : ObjNat) : Nat' :=
  let src := subst a.mapped.label a.node
  let fallback := a.fallback.map (fun f =>
    if f.interface = some none then { f with interface := some (some a.mapped.label) } else f)
  let o0 := ["auto"]
  let o1 := match a.service with
    | some .dns => addKey o0 "dns"
    | _ => o0
  let mappedService : Option Svc := match a.service with
    | some s => s.svc.map (fun s => { protocol := s.protocol, src := none, dst := s.src })
    | none => none
  { real := { iface := a.real.label, src := some a.node, dst := some (.host .any), service := mappedService }
    mapped := { iface := a.mapped.label, type := some a.type, src := some src, fallback := fallback,
                dst := some (.host .any), service := mappedService }
    description := none
    options := a.options.foldl addKey o1 }

/-- A block `object network NAME`: the addresses its definition line gives (none: no such line), and
its NAT line. -/
structure Block where
  name : String
  addresses : Option (List Host)
  nat : Option ObjNat

/-- The result of `object_type` for a network object, aclSemantics.py:128-159: a new object, whether
or not the name is known, with the NAT entry whose real source is that new object. -/
def objectType (b : Block) : Host × Option Nat' :=
  let p := Host.obj b.name (b.addresses.getD [])
  (p, b.nat.map (fun n =>
    let r := networkObjectNat n
    { r with real := { r.real with src := some (.host p) } }))

/-- Section 2 of `ACLConfig.nat`: the NAT entries of all network objects in order
(aclObjects.py:1218-1221, C38). -/
def autoNat (l : List Block) : List Nat' := l.filterMap (fun b => (objectType b).2)

/-! ## twice NAT -/

/-- `nat_src` (fwsmSemantics.py:166-184): type, real node, mapped node, fallback. -/
structure SrcSpec where
  type : String
  real : Node'
  mapped : Node'
  fallback : Option Fallback

/-- `nat (real,mapped) [pos] source … [destination …] [service a b] options` (fwsm.bnf:167-170);
without an interface pair it is the FWSM/PIX form. -/
structure Cmd where
  iface : Option (IfRef × IfRef)
  pos : Bool
  src : SrcSpec
  dst : Option (Node' × Node')
  service : Option (Svc × Svc)
  options : List (String × Option String)

/-- `real["service"]` and `mapped["service"]`, fwsmSemantics.py:96-121: `ast.service[2]` and `[4]` are the
two service objects, `ast.service[1]` is the white space between them, None, so the third test raises
AttributeError. -/
def services (type : String) : Option (Svc × Svc) → Py (Option Svc × Option Svc)
  | none => .ok (none, none)
  | some (a, b) =>
    if type = "static" then
      if a.src.isSome && !a.dst.isSome && b.src.isSome && !b.dst.isSome then .ok (some a, some b)
      else if !a.src.isSome && a.dst.isSome && !b.src.isSome && b.dst.isSome then .ok (some b, some a)
      else .error .attribute
    else if type = "dynamic" then .ok (some a, some b)
    else .error .value

/-- `for i in ast.options`, fwsmSemantics.py:123-127. -/
def optionStep (s : Option String × List String) (o : String × Option String) : Option String × List String :=
  if o.1 = "description" then (o.2, s.2) else (s.1, addKey s.2 o.1)

/-- `nat`, fwsmSemantics.py:85-156. -/
def twiceNat (c : Cmd) : Py (Option Nat') :=
  match c.iface with
  | none => .ok none
  | some (ri, mi) => do
    let (rs, ms) ← services c.src.type c.service
    let (descr, opts) := c.options.foldl optionStep (none, [])
    let opts := if c.pos then addKey opts "after-auto" else opts
    let fallback := c.src.fallback.map (fun f => { f with interface := some (some mi.label) })
    .ok (some
      { real := { iface := ri.label, src := some (subst ri.label c.src.real),
                  dst := c.dst.map (fun d => subst ri.label d.1), service := rs }
        mapped := { iface := mi.label, type := some c.src.type, src := some (subst mi.label c.src.mapped),
                    fallback := fallback, dst := c.dst.map (fun d => subst mi.label d.2), service := ms }
        description := descr
        options := opts })

end Acltk.NatCmd
