import Verif.Model.Section
import Verif.Lemmas.RowWords
import Verif.Lemmas.IosRowWords
/-!
# The words in the definitions of services, ports and icmp types of whatever text is accepted
-/
namespace Acltk.FwsmText
open Acltk Acltk.Lookup Acltk.Peg Acltk.AclText

variable {α β : Type} {g : Guard} {s : St} {e : Env}

/-- A type is not empty and has no slash; a code follows a type. -/
structure SvcOk (s : Svc) : Prop where
  src : PortOk s.src
  dst : PortOk s.dst
  icmp : s.protocol ∈ ["icmp", "icmp6"] → s.src = none ∧ s.dst = none
  other : s.protocol ∉ ["icmp", "icmp6"] → s.icmpType = none ∧ s.icmpCode = none
  type : ∀ t, s.icmpType = some t → t ≠ "" ∧ '/' ∉ t.toList
  code : ∀ c, s.icmpCode = some c → c ≠ "" ∧ s.icmpType ≠ none

def SvcMemberOk : SvcMember → Prop
  | .svc s => SvcOk s
  | _ => True

def PortMemberOk : PortMember → Prop
  | .port op _ => op ∈ ["gt", "lt", "eq", "neq"]
  | .range a b => Cells.PortText a ∧ Cells.PortText b
  | .group _ => True

def IcmpMemberOk : IcmpMember → Prop
  | .icmp t => t ≠ ""
  | .group _ => True

theorem svcOk_bare {p : String} : SvcOk { protocol := p } :=
  ⟨trivial, trivial, fun _ => ⟨rfl, rfl⟩, fun _ => ⟨rfl, rfl⟩, fun _ h => (by cases h), fun _ h => (by cases h)⟩

theorem icmpNames_slash : ∀ w ∈ icmpNames, w ≠ "" ∧ '/' ∉ w.toList := by decide +kernel

theorem val_icmpType' : Val (icmpType g) (fun t => t ≠ "" ∧ '/' ∉ t.toList) := by
  unfold icmpType
  refine Val.alt ?_ ?_
  · exact Val.skip fun _ => (val_oneOf _).mono fun w h => icmpNames_slash w h
  · refine Val.bind val_digits fun l hl => Val.bind (V := fun n => n = l ∧ l ≠ []) (Val.act fun n hn => checkedInt_ne hn) fun n hn => Val.pure ?_
    obtain ⟨rfl, hne⟩ := hn
    exact ⟨ofList_ne hne, by rw [String.toList_ofList]; intro h; exact absurd (hl _ h) (by decide)⟩

theorem val_icmpPart : Val (icmpPart g) (fun o => ∀ x : String × Option String, o = some x → (x.1 ≠ "" ∧ '/' ∉ x.1.toList) ∧ ∀ c, x.2 = some c → c ≠ "") := by
  unfold icmpPart
  refine Val.opt (V := fun x : String × Option String => (x.1 ≠ "" ∧ '/' ∉ x.1.toList) ∧ ∀ c, x.2 = some c → c ≠ "") ?_
  refine Val.skip fun _ => Val.bind val_icmpType' fun t ht => ?_
  refine Val.bind (Val.opt (V := fun c => c ≠ "") ?_) fun c hc => Val.pure ⟨ht, hc⟩
  refine Val.skip fun _ => Val.skip fun l => Val.bind (V := fun n => n = l ∧ l ≠ []) (Val.act fun n hn => checkedInt_ne hn) fun n hn => Val.pure ?_
  obtain ⟨rfl, hne⟩ := hn
  exact ofList_ne hne

theorem val_svcIcmp : Val (svcIcmp g) SvcOk := by
  unfold svcIcmp
  refine Val.bind (val_oneOf _) fun p hp => Val.bind val_icmpPart fun i hi => Val.pure ?_
  refine ⟨trivial, trivial, fun _ => ⟨rfl, rfl⟩, fun h => absurd hp h, ?_, ?_⟩
  · intro t ht
    cases i with
    | none => cases ht
    | some x => cases ht; exact (hi x rfl).1
  · intro c hc
    cases i with
    | none => cases hc
    | some x => exact ⟨(hi x rfl).2 c hc, by simp⟩

theorem val_serviceOp : Val (serviceOp g) (fun p => PortOk (some p)) := by
  unfold serviceOp
  refine Val.alt ?_ ?_
  · refine Val.bind (val_oneOf _) fun op h => Val.skip fun _ => Val.skip fun p => Val.pure ?_
    change op ∈ ["gt", "lt", "eq", "neq"]
    revert h
    simp only [List.mem_cons, List.not_mem_nil, or_false]
    rintro (h | h | h | h) <;> simp [h]
  · exact Val.skip fun _ => Val.skip fun _ => Val.bind val_port fun a ha => Val.skip fun _ => Val.bind val_port fun b hb =>
      Val.skip fun _ => Val.pure ⟨ha, hb⟩

theorem val_serviceSide {k : String} : Val (serviceSide g k) PortOk := by
  unfold serviceSide
  exact Val.alt (Val.skip fun _ => Val.skip fun _ => Val.bind val_serviceOp fun _ h => Val.pure h) (Val.pure trivial)

theorem portNames_icmp : ∀ p ∈ ["tcp-udp", "tcp", "udp"], p ∉ ["icmp", "icmp6"] := by decide

theorem val_svcPorts : Val (svcPorts g) SvcOk := by
  unfold svcPorts
  refine Val.bind (val_oneOf _) fun p hp => Val.skip fun _ => Val.bind val_serviceSide fun a ha => Val.skip fun _ =>
    Val.bind val_serviceSide fun b hb => Val.skip fun _ => Val.pure ?_
  exact ⟨ha, hb, fun h => absurd h (portNames_icmp p hp), fun _ => ⟨rfl, rfl⟩, fun _ h => (by cases h), fun _ h => (by cases h)⟩

theorem val_serviceArgs : Val (serviceArgs g) SvcOk := by
  unfold serviceArgs
  refine Val.alts_cons ?_ <| Val.alts_cons ?_ <| Val.alts_cons ?_ Val.alts_nil
  · exact Val.skip fun _ => Val.skip fun _ => Val.bind val_svcIcmp fun _ h => Val.skip fun _ => Val.pure h
  · exact Val.skip fun _ => Val.skip fun _ => Val.bind val_svcPorts fun _ h => Val.skip fun _ => Val.pure h
  · exact Val.skip fun _ => Val.skip fun _ => Val.skip fun _ => Val.skip fun _ => Val.pure svcOk_bare

theorem val_serviceMember : Val (serviceMember e) SvcMemberOk := by
  unfold serviceMember
  refine Val.alts_cons ?_ <| Val.alts_cons ?_ <| Val.alts_cons ?_ <| Val.alts_cons ?_ <| Val.alts_cons ?_ <| Val.alts_cons ?_ Val.alts_nil
  · exact Val.skip fun _ => Val.skip fun _ => Val.bind val_svcIcmp fun _ h => Val.skip fun _ => Val.skip fun _ => Val.pure h
  · exact Val.skip fun _ => Val.skip fun _ => Val.bind val_svcPorts fun _ h => Val.skip fun _ => Val.pure h
  · exact Val.skip fun _ => Val.skip fun _ => Val.skip fun _ => Val.skip fun _ => Val.skip fun _ => Val.pure svcOk_bare
  · exact Val.skip fun _ => Val.skip fun _ => Val.skip fun _ => Val.skip fun _ => Val.skip fun _ => Val.skip fun _ => Val.skip fun _ => Val.pure trivial
  · exact Val.skip fun _ => Val.skip fun _ => Val.skip fun _ => Val.skip fun _ => Val.skip fun _ => Val.pure trivial
  · exact Val.act fun _ h => by cases h

theorem val_portMember : Val (portMember e) (fun o => ∀ m, o = some m → PortMemberOk m) := by
  unfold portMember
  refine Val.alts_cons ?_ <| Val.alts_cons ?_ <| Val.alts_cons ?_ <| Val.alts_cons ?_ Val.alts_nil
  · refine Val.skip fun _ => Val.skip fun _ => Val.skip fun _ => Val.skip fun _ => Val.skip fun _ => Val.skip fun _ => Val.pure ?_
    intro m h; cases h
    change "eq" ∈ ["gt", "lt", "eq", "neq"]
    decide
  · refine Val.skip fun _ => Val.skip fun _ => Val.skip fun _ => Val.skip fun _ => Val.bind val_port fun a ha => Val.skip fun _ =>
      Val.bind val_port fun b hb => Val.skip fun _ => Val.skip fun _ => Val.pure ?_
    intro m h; cases h
    exact ⟨ha, hb⟩
  · refine Val.skip fun _ => Val.skip fun _ => Val.skip fun _ => Val.skip fun _ => Val.pure ?_
    intro m h; cases h
    trivial
  · exact Val.pure fun m h => by cases h

theorem addAll_mem {l : List (Option α)} {m : List α} (h : addAll l = .ok m) : ∀ a ∈ m, some a ∈ l := by
  cases l with
  | nil => cases h; simp
  | cons o l =>
    cases o with
    | none => cases h
    | some a =>
      cases h
      intro b hb
      rcases List.mem_cons.1 hb with rfl | hb
      · exact List.mem_cons_self
      · obtain ⟨o, ho, hb⟩ := List.mem_filterMap.1 hb
        simp only [id] at hb
        exact List.mem_cons_of_mem _ (hb ▸ ho)

theorem val_icmpMember : Val (icmpMember e) IcmpMemberOk := by
  unfold icmpMember
  refine Val.alts_cons ?_ <| Val.alts_cons ?_ <| Val.alts_cons ?_ Val.alts_nil
  · exact Val.skip fun _ => Val.skip fun _ => Val.bind val_icmpType fun _ h => Val.skip fun _ => Val.pure h
  · exact Val.skip fun _ => Val.skip fun _ => Val.skip fun _ => Val.skip fun _ => Val.pure trivial
  · exact Val.act fun _ h => by cases h

/-- The definition is made of words of the grammar. -/
def DefOk : Item → Prop
  | .svcObj _ _ s _ => SvcOk s
  | .svcGroup _ _ l _ => ∀ m ∈ l, SvcMemberOk m
  | .portGroup _ _ _ l _ => ∀ m ∈ l, PortMemberOk m
  | .icmpGroup _ _ l _ => ∀ m ∈ l, IcmpMemberOk m
  | _ => True

def DefOut (x : Item × St) : Prop := DefOk x.1 ∧ True

theorem def_keep {p : P Item} (hp : Val p DefOk) : Val (keep s p) DefOut :=
  Val.bind hp fun _ hi => Val.pure ⟨hi, trivial⟩

theorem def_command : Val (command s) DefOut := by
  unfold command
  dsimp only
  refine Val.alts_cons (def_keep ?_) <| Val.alts_cons (def_keep ?_) <| Val.alts_cons (def_keep ?_) <|
    Val.alts_cons ?_ <| Val.alts_cons ?_ <| Val.alts_cons ?_ <|
    Val.alts_cons ?_ <| Val.alts_cons ?_ <| Val.alts_cons (def_keep ?_) <|
    Val.alts_cons (def_keep ?_) <| Val.alts_cons (def_keep ?_) <| Val.alts_cons (def_keep ?_) <|
    Val.alts_cons (def_keep ?_) <| Val.alts_cons (def_keep ?_) Val.alts_nil
  · exact Val.skip fun _ => Val.skip fun _ => Val.pure trivial
  · exact Val.skip fun _ => Val.skip fun _ => Val.skip fun _ => Val.skip fun _ => Val.pure trivial
  · exact Val.skip fun _ => Val.skip fun _ => Val.skip fun _ => Val.pure trivial
  · unfold interface
    exact Val.skip fun _ => Val.skip fun _ => Val.skip fun _ => Val.skip fun _ => Val.skip fun _ => Val.skip fun _ => Val.pure ⟨trivial, trivial⟩
  · unfold name
    exact Val.skip fun _ => Val.skip fun _ => Val.skip fun _ => Val.skip fun _ => Val.skip fun _ =>
      Val.skip fun _ => Val.skip fun _ => Val.pure ⟨trivial, trivial⟩
  · unfold timeRange
    exact Val.skip fun _ => Val.skip fun _ => Val.skip fun _ => Val.skip fun _ => Val.skip fun _ => Val.skip fun _ =>
      Val.pure ⟨trivial, trivial⟩
  · unfold object
    refine Val.skip fun _ => Val.skip fun _ => Val.alt ?_ ?_
    · unfold objectNetwork
      dsimp only
      exact Val.skip fun _ => Val.skip fun _ => Val.skip fun _ => Val.skip fun _ => Val.skip fun _ => Val.skip fun _ => Val.skip fun _ => Val.pure ⟨trivial, trivial⟩
    · unfold objectService
      dsimp only
      refine Val.skip fun _ => Val.skip fun _ => Val.skip fun _ =>
        Val.bind (Val.opt (V := SvcOk) (Val.skip fun _ => Val.skip fun _ => val_serviceArgs)) fun a ha => Val.skip fun _ =>
        Val.bind (V := SvcOk) (Val.act fun v hv => ?_) fun v hv => Val.pure ⟨hv, trivial⟩
      cases a with
      | none => cases hv
      | some x => cases hv; exact ha _ rfl
  · unfold objectGroup objectGroupType
    dsimp only
    refine Val.skip fun _ => Val.skip fun _ => Val.alts_cons ?_ <| Val.alts_cons ?_ <| Val.alts_cons ?_ <| Val.alts_cons ?_ <|
      Val.alts_cons ?_ Val.alts_nil
    · exact Val.skip fun _ => Val.skip fun ⟨n, d, l⟩ => Val.pure ⟨trivial, trivial⟩
    · unfold indented
      refine Val.skip fun _ => Val.skip fun _ => Val.skip fun _ => Val.skip fun _ => Val.skip fun _ => Val.skip fun _ => Val.skip fun _ => Val.skip fun _ =>
        Val.bind (Val.many (Val.skip fun _ => val_portMember)) fun l hl =>
        Val.bind (V := fun l => ∀ m ∈ l, PortMemberOk m) (Val.act fun v hv m hm => hl _ (addAll_mem hv m hm) m rfl) fun v hv => Val.pure ⟨hv, trivial⟩
    · exact Val.skip fun _ => Val.bind (val_groupBody val_serviceMember) fun ⟨n, d, l⟩ hl => Val.pure ⟨hl, trivial⟩
    · exact Val.skip fun _ => Val.bind (val_groupBody val_icmpMember) fun ⟨n, d, l⟩ hl => Val.pure ⟨hl, trivial⟩
    · exact Val.skip fun _ => Val.skip fun ⟨n, d, l⟩ => Val.pure ⟨trivial, trivial⟩
  · refine Val.skip fun r => Val.pure ?_
    cases r <;> trivial
  · exact Val.skip fun _ => Val.pure trivial
  · unfold accessGroup
    refine Val.alt ?_ ?_
    · exact Val.skip fun _ => Val.skip fun _ => Val.skip fun _ => Val.skip fun _ => Val.skip fun _ => Val.skip fun _ => Val.skip fun _ => Val.skip fun _ => Val.skip fun _ => Val.skip fun _ => Val.skip fun _ =>
        Val.pure trivial
    · exact Val.skip fun _ => Val.skip fun _ => Val.skip fun _ => Val.skip fun _ => Val.skip fun _ => Val.skip fun _ => Val.skip fun _ =>
        Val.pure trivial
  · unfold nat
    refine Val.alt ?_ ?_
    · refine Val.skip fun _ => Val.skip fun _ => Val.skip fun _ => Val.skip fun _ => Val.skip fun _ => Val.skip fun src =>
        Val.skip fun dst => Val.skip fun _ => Val.skip fun _ => Val.skip fun _ => Val.skip fun _ => Val.skip fun n => Val.pure ?_
      cases n <;> trivial
    · exact Val.skip fun _ => Val.skip fun _ => Val.skip fun _ => Val.skip fun _ => Val.skip fun _ => Val.skip fun _ => Val.pure trivial
  · unfold ignored
    refine Val.alts ?_
    intro p hp
    obtain ⟨kt, -, rfl⟩ := List.mem_map.1 hp
    exact Val.skip fun _ => Val.skip fun _ => Val.pure trivial
  · exact Val.skip fun _ => Val.pure trivial

theorem parseFile_defs {t r : Text} {items : List Item} (h : parseFile g t = .ok items r) : ∀ i ∈ items, DefOk i := by
  unfold parseFile at h
  split at h
  · rename_i l s' hc
    split at h
    · cases h
    · cases h
      exact (commands_inv (S := fun _ => True) (I := DefOk) (fun s _ => def_command) _ _ _ _ _ _ rfl trivial hc).1
  · cases h
  · cases h
  · cases h

end Acltk.FwsmText

namespace Acltk.IosText
open Acltk Acltk.Lookup Acltk.Peg Acltk.AclText
open Acltk.FwsmText (St Val DefOk SvcMemberOk svcOk_bare val_svcIcmp val_svcPorts val_portMember val_icmpMember val_groupBody addAll_mem PortMemberOk)

variable {g : Guard} {s : St} {e : Env}

theorem val_serviceMember : Val (serviceMember e) SvcMemberOk := by
  unfold serviceMember
  refine Val.alts_cons ?_ <| Val.alts_cons ?_ <| Val.alts_cons ?_ <| Val.alts_cons ?_ <| Val.alts_cons ?_ Val.alts_nil
  · exact Val.bind val_svcIcmp fun _ h => Val.skip fun _ => Val.skip fun _ => Val.pure h
  · exact Val.bind val_svcPorts fun _ h => Val.skip fun _ => Val.pure h
  · exact Val.skip fun _ => Val.skip fun _ => Val.skip fun _ => Val.pure svcOk_bare
  · exact Val.skip fun _ => Val.skip fun _ => Val.skip fun _ => Val.skip fun _ => Val.skip fun _ => Val.pure trivial
  · exact Val.act fun _ h => by cases h

def DefItem : Item → Prop
  | .base i => DefOk i
  | _ => True

def DefOut (x : Item × St) : Prop := DefItem x.1 ∧ True

theorem def_objectGroup : Val (objectGroup s) DefOut := by
  unfold objectGroup
  refine Val.skip fun _ => Val.skip fun _ => Val.bind (V := fun x : FwsmText.Item × St => DefOk x.1) ?_ fun ⟨i, s'⟩ h => Val.pure ⟨h, trivial⟩
  unfold objectGroupType
  dsimp only
  refine Val.alts_cons ?_ <| Val.alts_cons ?_ <| Val.alts_cons ?_ <| Val.alts_cons ?_ <|
    Val.alts_cons ?_ Val.alts_nil
  · exact Val.skip fun _ => Val.skip fun ⟨n, d, l⟩ => Val.pure trivial
  · unfold FwsmText.indented
    refine Val.skip fun _ => Val.skip fun _ => Val.skip fun _ => Val.skip fun _ => Val.skip fun _ => Val.skip fun _ => Val.skip fun _ => Val.skip fun _ =>
      Val.bind (Val.many (Val.skip fun _ => val_portMember)) fun l hl =>
      Val.bind (V := fun l => ∀ m ∈ l, PortMemberOk m) (Val.act fun v hv m hm => hl _ (addAll_mem hv m hm) m rfl) fun v hv => Val.pure hv
  · exact Val.skip fun _ => Val.bind (val_groupBody val_serviceMember) fun ⟨n, d, l⟩ hl => Val.pure hl
  · exact Val.skip fun _ => Val.bind (val_groupBody val_icmpMember) fun ⟨n, d, l⟩ hl => Val.pure hl
  · exact Val.skip fun _ => Val.skip fun ⟨n, d, l⟩ => Val.pure trivial

theorem def_keep {p : P Item} (hp : Val p DefItem) : Val (keep s p) DefOut :=
  Val.bind hp fun _ hi => Val.pure ⟨hi, trivial⟩

theorem def_ip : Val (ip s) DefItem := by
  unfold ip
  refine Val.skip fun _ => Val.skip fun _ => Val.alts_cons ?_ <| Val.alts_cons ?_ <| Val.alts_cons ?_ <| Val.alts_cons ?_ Val.alts_nil
  · exact Val.skip fun _ => Val.skip fun _ => Val.skip fun l => Val.pure trivial
  · exact Val.skip fun _ => Val.skip fun _ => Val.skip fun _ => Val.pure trivial
  · refine Val.skip fun _ => Val.skip fun _ => ?_
    unfold ipRoute routeTo
    refine Val.alt ?_ ?_
    · exact Val.skip fun _ => Val.skip fun _ => Val.pure trivial
    · exact Val.skip fun _ => Val.skip fun _ => Val.skip fun _ => Val.skip fun _ => Val.skip fun _ => Val.skip fun _ => Val.skip fun _ =>
        Val.pure trivial
  · exact Val.skip fun _ => Val.pure trivial

theorem def_ipv6 : Val (ipv6 e) DefItem := by
  unfold ipv6
  refine Val.skip fun _ => Val.skip fun _ => Val.alt ?_ ?_
  · exact Val.skip fun l => Val.pure trivial
  · exact Val.skip fun _ => Val.pure trivial

theorem def_base {p : P FwsmText.Item} (h : Val p DefOk) : Val (base p) DefItem := Val.bind h fun _ h => Val.pure h

theorem def_command : Val (command s) DefOut := by
  unfold command
  refine Val.alts_cons (def_keep (def_base ?_)) <| Val.alts_cons (def_keep (def_base ?_)) <|
    Val.alts_cons (def_keep (def_base ?_)) <| Val.alts_cons ?_ <| Val.alts_cons def_objectGroup <|
    Val.alts_cons (def_keep ?_) <| Val.alts_cons (def_keep def_ip) <| Val.alts_cons (def_keep def_ipv6) <|
    Val.alts_cons (def_keep ?_) Val.alts_nil
  · unfold version
    exact Val.skip fun _ => Val.skip fun _ => Val.skip fun _ => Val.pure trivial
  · exact Val.skip fun _ => Val.skip fun _ => Val.skip fun _ => Val.skip fun _ => Val.pure trivial
  · exact Val.skip fun _ => Val.skip fun _ => Val.skip fun _ => Val.pure trivial
  · unfold interface
    exact Val.skip fun _ => Val.skip fun _ => Val.skip fun _ => Val.skip fun _ => Val.skip fun _ => Val.skip fun _ => Val.pure ⟨trivial, trivial⟩
  · exact Val.skip fun _ => Val.pure trivial
  · exact Val.skip fun _ => Val.pure trivial

theorem parseFile_defs {t r : Text} {items : List Item} (h : parseFile g t = .ok items r) : ∀ i ∈ items, DefItem i := by
  have key : ∀ (l : List Item) (s' : St) (u : Text), commands { env := { guard := g } } t = .ok (l, s') u → ∀ i ∈ l, DefItem i := by
    intro l s' u hc
    exact (commands_inv (S := fun _ => True) (I := DefItem) (fun s _ => def_command) _ _ _ _ _ _ rfl trivial hc).1
  unfold parseFile at h
  split at h
  · rename_i l s' u hc
    split at h
    · cases h
    · split at h
      · cases h; exact key _ _ _ hc
      · split at h
        · cases h; exact key _ _ _ hc
        · cases h
  · cases h
  · cases h

end Acltk.IosText
