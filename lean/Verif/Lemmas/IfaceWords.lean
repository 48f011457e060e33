import Verif.Lemmas.RowWords
import Verif.Lemmas.SectionWords
import Verif.Lemmas.TimeWords
import Verif.Spec.IfaceSectionSpec
/-!
# The interfaces of whatever text is accepted
-/
namespace Acltk.Ifc
open Acltk

def VlanOk : Vlan → Prop
  | .one v => ∀ c ∈ v.toList, c.isDigit = true
  | .range a b => (∀ c ∈ a.toList, c.isDigit = true) ∧ ∀ c ∈ b.toList, c.isDigit = true

def VlansOk (l : List Vlan) : Prop := l ≠ [] ∧ ∀ v ∈ l, VlanOk v

def SwitchOk : Switch → Prop
  | .mode _ => True
  | .trunkSet l => VlansOk l
  | .trunkAdd l => VlansOk l

def LineOk : Line → Prop
  | .switch c => SwitchOk c
  | _ => True

/-- What the section needs. -/
structure IntfOk (i : Intf) : Prop where
  addresses : ∀ x ∈ i.addresses, x.1.Valid
  trunk : ∀ s l, i.switchport = some s → s.trunk = some l → VlansOk l

def DetailOk (d : Detail) : Prop := ∀ t c, d = some (t, .switch c) → SwitchOk c

theorem detail_ok {l : Line} (h : LineOk l) : DetailOk l.detail := by
  intro t c e
  cases l with
  | switch c' => cases e; exact h
  | ipv6 a p => cases p <;> cases e
  | _ => cases e

theorem addAddr_ok {s s' : Intf} {am : Py (String × String)} (hs : IntfOk s) (h : addAddr s am = .ok s') : IntfOk s' := by
  unfold addAddr at h
  split at h
  · cases h
  · rename_i a m
    unfold mkIfAddr at h
    generalize mkNetwork a.toList m.toList = n at h
    cases n with
    | error e => cases h
    | ok n =>
      generalize hp : ipAddress a.toList = p at h
      cases p with
      | error e => cases h
      | ok p =>
        cases h
        refine ⟨fun x hx => ?_, hs.trunk⟩
        rcases List.mem_append.1 hx with hx | hx
        · exact hs.addresses x hx
        · rw [List.mem_singleton] at hx
          subst hx
          exact ipAddress_valid hp

theorem addGroup_ok {s s' : Intf} {f : String} {am : Py (String × String)} (hs : IntfOk s) (h : addGroup s f am = .ok s') : IntfOk s' := by
  unfold addGroup at h
  split at h <;> cases h
  exact ⟨hs.addresses, hs.trunk⟩

theorem switchStep_ok {s s' : Intf} {c : Switch} (hs : IntfOk s) (hc : SwitchOk c) (h : switchStep s c = .ok s') : IntfOk s' := by
  obtain ⟨al, ad, ag, ni, de, sp⟩ := s
  cases c with
  | mode m =>
    cases h
    refine ⟨hs.addresses, fun t l h1 h2 => ?_⟩
    cases h1
    cases sp with
    | none => cases h2
    | some q => exact hs.trunk q l rfl h2
  | trunkSet l =>
    cases h
    refine ⟨hs.addresses, fun t l h1 h2 => ?_⟩
    cases h1
    cases h2
    exact hc
  | trunkAdd l =>
    cases sp with
    | none => cases h
    | some q =>
      obtain ⟨mo, tr⟩ := q
      cases tr with
      | none => cases h
      | some t =>
        cases h
        refine ⟨hs.addresses, fun t' l' h1 h2 => ?_⟩
        cases h1
        cases h2
        have := hs.trunk ⟨mo, some t⟩ t rfl rfl
        exact ⟨by simp [this.1], fun v hv => (List.mem_append.1 hv).elim (this.2 v) (hc.2 v)⟩

theorem detailStep_ok {s s' : Intf} {d : Detail} (hs : IntfOk s) (hd : DetailOk d) (h : detailStep s d = .ok s') : IntfOk s' := by
  unfold detailStep at h
  repeat' split at h
  all_goals first
    | (cases h; done)
    | (cases h; exact hs)
    | (cases h; exact ⟨hs.addresses, hs.trunk⟩)
    | exact switchStep_ok hs (hd _ _ rfl) h
    | exact addAddr_ok hs h
    | exact addGroup_ok hs h

theorem detailLoop_ok {l : List Detail} : ∀ {s s' : Intf}, IntfOk s → (∀ d ∈ l, DetailOk d) → detailLoop s l = .ok s' → IntfOk s' := by
  induction l with
  | nil => intro s s' hs _ h; cases h; exact hs
  | cons d l ih =>
    intro s s' hs hd h
    unfold detailLoop at h
    generalize hw : detailStep s d = w at h
    cases w with
    | error e => cases h
    | ok w => exact ih (detailStep_ok hs (hd d List.mem_cons_self) hw) (fun x hx => hd x (List.mem_cons_of_mem _ hx)) h

theorem interfaceOf_ok {a : String} {l : List Line} {i : Intf} (hl : ∀ x ∈ l, LineOk x) (h : interfaceOf a l = .ok i) : IntfOk i := by
  refine detailLoop_ok (s := { alias := a }) ⟨fun x hx => (by cases hx), fun s l h1 h2 => (by cases h1)⟩ ?_ h
  intro d hd
  obtain ⟨x, hx, rfl⟩ := List.mem_map.1 hd
  exact detail_ok (hl x hx)

end Acltk.Ifc

namespace Acltk.FwsmText
open Acltk Acltk.Lookup Acltk.Peg Acltk.Ifc

variable {g : Guard}

theorem val_interfaceDetail : Val (interfaceDetail g) LineOk := by
  unfold interfaceDetail
  refine Val.alts fun p hp => ?_
  simp only [List.mem_cons, List.not_mem_nil, or_false] at hp
  rcases hp with rfl | rfl | rfl | rfl | rfl | rfl <;> repeat' first | exact Val.pure trivial | refine Val.skip fun _ => ?_

def IfaceItem : Item → Prop
  | .iface i => IntfOk i
  | _ => True

def IfaceOut (x : Item × St) : Prop := IfaceItem x.1 ∧ True

theorem iface_keep {s : St} {p : P Item} (hp : Val p IfaceItem) : Val (keep s p) IfaceOut :=
  Val.bind hp fun _ hi => Val.pure ⟨hi, trivial⟩

theorem iface_command {s : St} : Val (command s) IfaceOut := by
  unfold command
  dsimp only
  refine Val.alts_cons (iface_keep ?_) <| Val.alts_cons (iface_keep ?_) <| Val.alts_cons (iface_keep ?_) <|
    Val.alts_cons ?_ <| Val.alts_cons ?_ <| Val.alts_cons ?_ <|
    Val.alts_cons ?_ <| Val.alts_cons ?_ <| Val.alts_cons (iface_keep ?_) <|
    Val.alts_cons (iface_keep ?_) <| Val.alts_cons (iface_keep ?_) <| Val.alts_cons (iface_keep ?_) <|
    Val.alts_cons (iface_keep ?_) <| Val.alts_cons (iface_keep ?_) Val.alts_nil
  · exact Val.skip fun _ => Val.skip fun _ => Val.pure trivial
  · exact Val.skip fun _ => Val.skip fun _ => Val.skip fun _ => Val.skip fun _ => Val.pure trivial
  · exact Val.skip fun _ => Val.skip fun _ => Val.skip fun _ => Val.pure trivial
  · unfold interface
    refine Val.skip fun _ => Val.skip fun _ => Val.skip fun _ => Val.skip fun _ =>
      Val.bind (V := fun l => ∀ o ∈ l, LineOk o) (Val.many (Val.skip fun _ => val_interfaceDetail)) fun l hl =>
      Val.bind (V := IntfOk) (Val.act fun m hm => interfaceOf_ok hl hm) fun m hm => Val.pure ⟨hm, trivial⟩
  · unfold name
    exact Val.skip fun _ => Val.skip fun _ => Val.skip fun _ => Val.skip fun _ => Val.skip fun _ =>
      Val.skip fun _ => Val.skip fun _ => Val.pure ⟨trivial, trivial⟩
  · unfold timeRange
    exact Val.skip fun _ => Val.skip fun _ => Val.skip fun _ => Val.skip fun _ => Val.skip fun _ => Val.skip fun _ =>
      Val.pure ⟨trivial, trivial⟩
  · unfold object
    refine Val.skip fun _ => Val.skip fun _ => Val.alt ?_ ?_
    · unfold objectNetwork
      dsimp only
      exact Val.skip fun _ => Val.skip fun _ => Val.skip fun _ => Val.skip fun _ => Val.skip fun _ => Val.skip fun _ => Val.skip fun _ => Val.pure ⟨trivial, trivial⟩
    · unfold objectService
      dsimp only
      exact Val.skip fun _ => Val.skip fun _ => Val.skip fun _ => Val.skip fun _ => Val.skip fun _ => Val.skip fun _ => Val.pure ⟨trivial, trivial⟩
  · unfold objectGroup objectGroupType
    dsimp only
    refine Val.skip fun _ => Val.skip fun _ => Val.alts_cons ?_ <| Val.alts_cons ?_ <| Val.alts_cons ?_ <| Val.alts_cons ?_ <|
      Val.alts_cons ?_ Val.alts_nil
    · exact Val.skip fun _ => Val.skip fun ⟨n, d, l⟩ => Val.pure ⟨trivial, trivial⟩
    · exact Val.skip fun _ => Val.skip fun _ => Val.skip fun _ => Val.skip fun _ => Val.skip fun _ =>
        Val.skip fun _ => Val.skip fun _ => Val.skip fun _ => Val.skip fun _ => Val.skip fun _ => Val.pure ⟨trivial, trivial⟩
    · exact Val.skip fun _ => Val.skip fun ⟨n, d, l⟩ => Val.pure ⟨trivial, trivial⟩
    · exact Val.skip fun _ => Val.skip fun ⟨n, d, l⟩ => Val.pure ⟨trivial, trivial⟩
    · exact Val.skip fun _ => Val.skip fun ⟨n, d, l⟩ => Val.pure ⟨trivial, trivial⟩
  · refine Val.skip fun r => Val.pure ?_
    cases r <;> trivial
  · exact Val.skip fun _ => Val.pure trivial
  · unfold accessGroup
    refine Val.alt ?_ ?_
    · exact Val.skip fun _ => Val.skip fun _ => Val.skip fun _ => Val.skip fun _ => Val.skip fun _ => Val.skip fun _ => Val.skip fun _ => Val.skip fun _ => Val.skip fun _ => Val.skip fun _ => Val.skip fun _ =>
        Val.pure trivial
    · exact Val.skip fun _ => Val.skip fun _ => Val.skip fun _ => Val.skip fun _ => Val.skip fun _ => Val.skip fun _ => Val.skip fun _ =>
        Val.pure trivial
  · unfold nat
    refine Val.alt ?_ ?_
    · refine Val.skip fun _ => Val.skip fun _ => Val.skip fun _ => Val.skip fun _ => Val.skip fun _ => Val.skip fun src =>
        Val.skip fun dst => Val.skip fun _ => Val.skip fun _ => Val.skip fun _ => Val.skip fun _ => Val.skip fun n => Val.pure ?_
      cases n <;> trivial
    · exact Val.skip fun _ => Val.skip fun _ => Val.skip fun _ => Val.skip fun _ => Val.skip fun _ => Val.skip fun _ => Val.pure trivial
  · unfold ignored
    refine Val.alts ?_
    intro p hp
    obtain ⟨kt, -, rfl⟩ := List.mem_map.1 hp
    exact Val.skip fun _ => Val.skip fun _ => Val.pure trivial
  · exact Val.skip fun _ => Val.pure trivial

theorem parseFile_ifaces {t r : Text} {items : List Item} (h : parseFile g t = .ok items r) : ∀ i ∈ items, IfaceItem i := by
  unfold parseFile at h
  split at h
  · rename_i l s' hc
    split at h
    · cases h
    · cases h
      exact (commands_inv (S := fun _ => True) (I := IfaceItem) (fun _ _ => iface_command) _ _ _ _ _ _ rfl trivial hc).1
  · cases h
  · cases h
  · cases h

end Acltk.FwsmText

namespace Acltk.IosText
open Acltk Acltk.Lookup Acltk.Peg Acltk.AclText
open Acltk.Ifc (VlanOk VlansOk SwitchOk LineOk IntfOk interfaceOf_ok)
open Acltk.FwsmText (St Val IfaceItem)

variable {g : Guard} {s : St} {e : Env}

theorem ofList_digits {l : List Char} (h : ∀ c ∈ l, c.isDigit = true) : ∀ c ∈ (String.ofList l).toList, c.isDigit = true := by
  rwa [String.toList_ofList]

theorem val_vlan : Val vlan VlanOk := by
  unfold vlan
  refine Val.alt ?_ ?_
  · exact Val.bind FwsmText.val_digits fun a ha => Val.skip fun _ => Val.bind FwsmText.val_digits fun b hb => Val.pure ⟨ofList_digits ha, ofList_digits hb⟩
  · exact Val.bind FwsmText.val_digits fun a ha => Val.pure (ofList_digits ha)

theorem val_vlanList : Val vlanList VlansOk := by
  unfold vlanList
  refine Val.bind val_vlan fun v hv => Val.bind (V := fun l => ∀ x ∈ l, VlanOk x) (Val.many (Val.skip fun _ => val_vlan)) fun l hl => Val.pure ⟨by simp, fun x hx => ?_⟩
  rcases List.mem_cons.1 hx with rfl | hx
  · exact hv
  · exact hl x hx

theorem val_switchport : Val (switchport g) SwitchOk := by
  unfold switchport
  refine Val.alt ?_ ?_
  · exact Val.skip fun _ => Val.skip fun _ => Val.skip fun _ => Val.skip fun _ => Val.pure trivial
  · refine Val.skip fun _ => Val.skip fun _ => Val.skip fun _ => Val.skip fun _ => Val.skip fun _ => Val.skip fun _ => Val.bind (V := SwitchOk) ?_ fun c hc => Val.skip fun _ => Val.pure hc
    refine Val.alt ?_ ?_
    · exact Val.skip fun _ => Val.skip fun _ => Val.bind val_vlanList fun l hl => Val.pure hl
    · exact Val.bind val_vlanList fun l hl => Val.pure hl

theorem val_interfaceDetail : Val (interfaceDetail g) LineOk := by
  unfold interfaceDetail
  refine Val.alts_cons ?_ <| Val.alts_cons ?_ <| Val.alts_cons ?_ <| Val.alts_cons ?_ <| Val.alts_cons ?_ <| Val.alts_cons ?_ <| Val.alts_cons ?_ <| Val.alts_cons ?_ Val.alts_nil
  all_goals first
    | exact Val.skip fun _ => Val.skip fun _ => Val.bind val_switchport fun c hc => Val.skip fun _ => Val.skip fun _ => Val.pure hc
    | (repeat' first | exact Val.pure trivial | refine Val.skip fun _ => ?_)

def IfItem : Item → Prop
  | .base i => IfaceItem i
  | _ => True

def IfOut (x : Item × St) : Prop := IfItem x.1 ∧ True

theorem if_objectGroup : Val (objectGroup s) IfOut := by
  unfold objectGroup
  refine Val.skip fun _ => Val.skip fun _ => Val.bind (V := fun x : FwsmText.Item × St => IfaceItem x.1) ?_ fun ⟨i, s'⟩ h => Val.pure ⟨h, trivial⟩
  unfold objectGroupType
  dsimp only
  refine Val.alts_cons ?_ <| Val.alts_cons ?_ <| Val.alts_cons ?_ <| Val.alts_cons ?_ <|
    Val.alts_cons ?_ Val.alts_nil
  · exact Val.skip fun _ => Val.skip fun ⟨n, d, l⟩ => Val.pure trivial
  · exact Val.skip fun _ => Val.skip fun _ => Val.skip fun _ => Val.skip fun _ => Val.skip fun _ => Val.skip fun _ => Val.skip fun _ => Val.skip fun _ =>
      Val.skip fun l => Val.skip fun v => Val.pure trivial
  · exact Val.skip fun _ => Val.skip fun ⟨n, d, l⟩ => Val.pure trivial
  · exact Val.skip fun _ => Val.skip fun ⟨n, d, l⟩ => Val.pure trivial
  · exact Val.skip fun _ => Val.skip fun ⟨n, d, l⟩ => Val.pure trivial

theorem if_keep {p : P Item} (hp : Val p IfItem) : Val (keep s p) IfOut :=
  Val.bind hp fun _ hi => Val.pure ⟨hi, trivial⟩

theorem if_ip : Val (ip s) IfItem := by
  unfold ip
  refine Val.skip fun _ => Val.skip fun _ => Val.alts_cons ?_ <| Val.alts_cons ?_ <| Val.alts_cons ?_ <| Val.alts_cons ?_ Val.alts_nil
  · exact Val.skip fun _ => Val.skip fun _ => Val.skip fun l => Val.pure trivial
  · exact Val.skip fun _ => Val.skip fun _ => Val.skip fun _ => Val.pure trivial
  · refine Val.skip fun _ => Val.skip fun _ => ?_
    unfold ipRoute routeTo
    refine Val.alt ?_ ?_
    · exact Val.skip fun _ => Val.skip fun _ => Val.pure trivial
    · exact Val.skip fun _ => Val.skip fun _ => Val.skip fun _ => Val.skip fun _ => Val.skip fun _ => Val.skip fun _ => Val.skip fun _ =>
        Val.pure trivial
  · exact Val.skip fun _ => Val.pure trivial

theorem if_ipv6 : Val (ipv6 e) IfItem := by
  unfold ipv6
  refine Val.skip fun _ => Val.skip fun _ => Val.alt ?_ ?_
  · exact Val.skip fun l => Val.pure trivial
  · exact Val.skip fun _ => Val.pure trivial

theorem if_base {p : P FwsmText.Item} (h : Val p IfaceItem) : Val (base p) IfItem := Val.bind h fun _ h => Val.pure h

theorem if_command : Val (command s) IfOut := by
  unfold command
  refine Val.alts_cons (if_keep (if_base ?_)) <| Val.alts_cons (if_keep (if_base ?_)) <|
    Val.alts_cons (if_keep (if_base ?_)) <| Val.alts_cons ?_ <| Val.alts_cons if_objectGroup <|
    Val.alts_cons (if_keep ?_) <| Val.alts_cons (if_keep if_ip) <| Val.alts_cons (if_keep if_ipv6) <|
    Val.alts_cons (if_keep ?_) Val.alts_nil
  · unfold version
    exact Val.skip fun _ => Val.skip fun _ => Val.skip fun _ => Val.pure trivial
  · exact Val.skip fun _ => Val.skip fun _ => Val.skip fun _ => Val.skip fun _ => Val.pure trivial
  · exact Val.skip fun _ => Val.skip fun _ => Val.skip fun _ => Val.pure trivial
  · unfold interface
    refine Val.skip fun _ => Val.skip fun _ => Val.skip fun _ => Val.skip fun _ =>
      Val.bind (V := fun l => ∀ o ∈ l, LineOk o) (Val.many (Val.skip fun _ => val_interfaceDetail)) fun l hl =>
      Val.bind (V := IntfOk) (Val.act fun m hm => interfaceOf_ok hl hm) fun m hm => Val.pure ⟨hm, trivial⟩
  · exact Val.skip fun _ => Val.pure trivial
  · exact Val.skip fun _ => Val.pure trivial

theorem parseFile_ifaces {t r : Text} {items : List Item} (h : parseFile g t = .ok items r) : ∀ i ∈ items, IfItem i := by
  have key : ∀ (l : List Item) (s' : St) (u : Text), commands { env := { guard := g } } t = .ok (l, s') u → ∀ i ∈ l, IfItem i := by
    intro l s' u hc
    exact (commands_inv (S := fun _ => True) (I := IfItem) (fun s _ => if_command) _ _ _ _ _ _ rfl trivial hc).1
  unfold parseFile at h
  split at h
  · rename_i l s' u hc
    split at h
    · cases h
    · split at h
      · cases h; exact key _ _ _ hc
      · split at h
        · cases h; exact key _ _ _ hc
        · cases h
  · cases h
  · cases h

end Acltk.IosText
