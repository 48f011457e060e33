import Verif.Props.Config
import Verif.Props.PfConfig
/-!
# C63: host name, domain name, names and version of a configuration
-/
namespace Acltk.Config
open Acltk

/-- The host name an item states. -/
def hostnameOf : Item → Option String
  | .hostname s => some s
  | _ => none

/-- The domain name an item states. -/
def domainOf : Item → Option String
  | .domain s => some s
  | _ => none

/-- The `name` definition an item is. -/
def nameOf : Item → Option Oid
  | .name o => some o
  | _ => none

/-- The version an item states. -/
def versionOf : Item → Option String
  | .version v => some v
  | _ => none

theorem run_scalars (agName h ast0 l) :
    (run agName h ast0 l).hostname = ((l.filterMap hostnameOf).getLast?).getD "" ∧
    (run agName h ast0 l).domainname = ((l.filterMap domainOf).getLast?).getD "" ∧
    (run agName h ast0 l).names = l.filterMap nameOf ∧
    (run agName h ast0 l).version = (l.filterMap versionOf).getLast? := by
  induction l using snocInd with
  | nil => exact ⟨rfl, rfl, rfl, rfl⟩
  | snoc l i ih =>
    obtain ⟨h1, h2, h3, h4⟩ := ih
    rw [run_snoc]
    simp only [List.filterMap_append]
    generalize run agName h ast0 l = c at *
    cases i <;> simp only [step] <;> (repeat' split) <;>
      simp_all [hostnameOf, domainOf, nameOf, versionOf]

/-- **C63, what holds.** The host name and the domain name are those of the last such statement (empty
if there is none), the `name` definitions are kept in file order, the version is that of the last
version line; `config.name` is the host name and the domain name joined by a dot. -/
theorem C63_scalars_partial (agName : Oid → String) (h : Oid → Dict String Oid) (items : List Item) :
    (build agName h items).hostname = ((items.filterMap hostnameOf).getLast?).getD "" ∧
    (build agName h items).domainname = ((items.filterMap domainOf).getLast?).getD "" ∧
    (build agName h items).names = items.filterMap nameOf ∧
    (build agName h items).version = (items.filterMap versionOf).getLast? ∧
    (build agName h items).name =
      ((items.filterMap hostnameOf).getLast?).getD "" ++ "." ++ ((items.filterMap domainOf).getLast?).getD "" := by
  obtain ⟨h1, h2, h3, h4⟩ := run_scalars agName h items items
  refine ⟨h1, h2, h3, h4, ?_⟩
  show (run agName h items items).hostname ++ "." ++ (run agName h items items).domainname = _
  rw [h1, h2]

/-- **C63 is violated** for every configuration without a domain statement: the name is the host name
with a dot behind it. -/
theorem C63_violated (agName : Oid → String) (h : Oid → Dict String Oid) (items : List Item)
    (host : String) (hh : (items.filterMap hostnameOf).getLast? = some host)
    (hd : items.filterMap domainOf = []) :
    (build agName h items).name = host ++ "." ∧ (build agName h items).name ≠ host := by
  have e : (build agName h items).name = host ++ "." := by
    rw [(C63_scalars_partial agName h items).2.2.2.2, hh, hd]
    simp
  refine ⟨e, ?_⟩
  rw [e]
  intro h
  have := congrArg (fun s => s.toList.length) h
  simp at this

/-- The parse result of a pfSense configuration as far as the name goes (pfsenseSemantics.py:45-59):
the host name of each system section, no domain statement; `rest` are the groups, interfaces and
rules. -/
def pfItems {T : Type} (rest : List Item) (p : Pf.Parsed T) : List Item :=
  rest ++ (p.hostname.toList.map Item.hostname)

/-- **C63 is violated** for every pfSense configuration: the name of host `fw` in domain
`example.org` is `fw.example.org.` -/
theorem C63_violated_pfsense {T : Type} (v : Pf.Env T) (root : Pf.Elem) (p : Pf.Parsed T)
    (hp : Pf.parse v root = .ok p) (e : Pf.Elem) (hs : (Pf.findall root "system").getLast? = some e)
    (host domain : String) (hh : (Pf.lastChild e "hostname").bind Pf.Elem.text = some host)
    (hd : (Pf.lastChild e "domain").bind Pf.Elem.text = some domain)
    (rest : List Item) (hr1 : rest.filterMap hostnameOf = []) (hr2 : rest.filterMap domainOf = [])
    (agName : Oid → String) (h : Oid → Dict String Oid) :
    (build agName h (pfItems rest p)).name = host ++ "." ++ domain ++ "." := by
  obtain ⟨-, -, -, -, hn⟩ := Pf.C61_configuration v root p hp
  rw [hs] at hn
  simp only [Option.map_some, hh, hd, Option.getD_some] at hn
  have := C63_violated agName h (pfItems rest p) (host ++ "." ++ domain) (by
    simp [pfItems, hr1, hn, hostnameOf]) (by
    simp [pfItems, hr2, hn, domainOf])
  exact this.1

theorem C63_sample :
    (build (fun _ => "") (fun _ => []) [.hostname "a", .domain "x.org", .hostname "fw", .name 3, .version "9.1"]).name
      = "fw.x.org" ∧
    (build (fun _ => "") (fun _ => []) [.hostname "fw"]).name = "fw." := by
  decide +kernel

end Acltk.Config
