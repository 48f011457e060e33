import Verif.Spec.SectionSpec
import Verif.Lemmas.SectionWords
import Verif.Props.Row
/-!
# C118: what the sections of services, ports, icmp types and protocols say
-/
namespace Acltk.Cells
open Acltk Acltk.AclText Acltk.FwsmText
open Acltk.FwsmText (PortOk SvcOk SvcMemberOk PortMemberOk IcmpMemberOk DefOk)

variable {nm : Nat → String}

theorem each_iff {α β γ : Type} {R : β → γ → Prop} {S : α → γ → Prop} {f : α → β} {l : List α} (h : ∀ a ∈ l, ∀ x, R (f a) x ↔ S a x) (xs : List γ) :
    Each R (l.map f) xs ↔ Each S l xs := by
  induction l generalizing xs with
  | nil =>
    constructor <;> intro e <;> cases e <;> exact .nil
  | cons a l ih =>
    have ih := ih (fun b hb => h b (List.mem_cons_of_mem _ hb))
    have ha := h a List.mem_cons_self
    rw [List.map_cons]
    constructor
    · intro e
      cases e with
      | cons h1 h2 => exact .cons ((ha _).1 h1) ((ih _).1 h2)
    · intro e
      cases e with
      | cons h1 h2 => exact .cons ((ha _).2 h1) ((ih _).2 h2)

/-! ## type and code -/

/-- What is read, by its constructor. -/
theorem icmpCode_inv {s : List Char} {ty c : Option String} (h : ReadsIcmpCode s ty c) :
    s = [] ∧ ty = none ∧ c = none ∨ (∃ t, t ≠ "" ∧ '/' ∉ t.toList ∧ s = t.toList ∧ ty = some t ∧ c = none) ∨
    ∃ t d, '/' ∉ t.toList ∧ s = t.toList ++ '/' :: d.toList ∧ ty = some t ∧ c = some d := by
  cases h with
  | nothing => exact .inl ⟨rfl, rfl, rfl⟩
  | type t h1 h2 => exact .inr (.inl ⟨t, h1, h2, rfl, rfl, rfl⟩)
  | code t d h1 => exact .inr (.inr ⟨t, d, h1, rfl, rfl, rfl⟩)

theorem icmpCode_unique {s : List Char} {ty c ty' c' : Option String} (h : ReadsIcmpCode s ty c) (h' : ReadsIcmpCode s ty' c') : ty = ty' ∧ c = c' := by
  rcases icmpCode_inv h with ⟨rfl, rfl, rfl⟩ | ⟨t, hn, hs, rfl, rfl, rfl⟩ | ⟨t, d, hs, rfl, rfl, rfl⟩ <;>
  rcases icmpCode_inv h' with ⟨e, rfl, rfl⟩ | ⟨u, hn', hs', e, rfl, rfl⟩ | ⟨u, d', hs', e, rfl, rfl⟩
  · exact ⟨rfl, rfl⟩
  · exact absurd e.symm (toList_ne hn')
  · simp at e
  · exact absurd e (toList_ne hn)
  · exact ⟨congrArg _ (String.toList_inj.1 e), rfl⟩
  · exact absurd (e ▸ by simp) hs
  · simp at e
  · exact absurd (e ▸ by simp) hs'
  · obtain ⟨e1, e2⟩ := split_slash hs hs' e
    exact ⟨congrArg _ (String.toList_inj.1 e1), congrArg _ (String.toList_inj.1 e2)⟩

theorem icmpCode_reads {s : Svc} (h : SvcOk s) : ReadsIcmpCode (icmpTypeAndCode s.icmpType s.icmpCode) s.icmpType s.icmpCode := by
  have ht := h.type
  have hc := h.code
  generalize s.icmpType = ty at ht hc
  generalize s.icmpCode = c at hc
  cases ty with
  | none =>
    cases c with
    | none => exact .nothing
    | some c => exact absurd rfl (hc c rfl).2
  | some t =>
    have h1 := ht t rfl
    cases c with
    | none =>
      have : icmpTypeAndCode (some t) none = t.toList := by simp [icmpTypeAndCode]
      rw [this]; exact .type t h1.1 h1.2
    | some c =>
      have : icmpTypeAndCode (some t) (some c) = t.toList ++ '/' :: c.toList := by simp [icmpTypeAndCode, (hc c rfl).1]
      rw [this]; exact .code t c h1.2

/-! ## rows -/

theorem readsSvc_wide {p : String} {s : List Char} {x : SvcShown} (h : ReadsSvc (.wide (.text p.toList) s) x) :
    x.protocol = p ∧ x.src = .nothing ∧ x.dst = .nothing ∧ ReadsIcmpCode s x.type x.code := by
  generalize hc : SvcCells.wide (.text p.toList) s = c at h
  cases h with
  | icmp hp hr =>
    simp only [SvcCells.wide.injEq, Cell.text.injEq] at hc
    obtain ⟨h1, rfl⟩ := hc
    exact ⟨(String.toList_inj.1 h1).symm, rfl, rfl, hr⟩
  | ports hp ha hb => cases hc

theorem readsSvc_two {p : String} {a b : Cell} {x : SvcShown} (h : ReadsSvc (.two (.text p.toList) a b) x) :
    x.protocol = p ∧ x.type = none ∧ x.code = none ∧ ReadsPortVal a x.src ∧ ReadsPortVal b x.dst := by
  generalize hc : SvcCells.two (.text p.toList) a b = c at h
  cases h with
  | icmp hp hr => cases hc
  | ports hp ha hb =>
    simp only [SvcCells.two.injEq, Cell.text.injEq] at hc
    obtain ⟨h1, rfl, rfl⟩ := hc
    exact ⟨(String.toList_inj.1 h1).symm, rfl, rfl, ha, hb⟩

theorem portIs_none {x : PortShown} (h : PortIs nm none x) : x = .nothing := by cases h; rfl

/-- **C118, services.** The row of a service is read as that service and as nothing else: protocol, ports, icmp type and code. -/
theorem C118_service (nm : Nat → String) (s : Svc) (hs : SvcOk s) (x : SvcShown) : ReadsSvc (svcCells nm s) x ↔ SvcIs nm s x := by
  unfold svcCells
  split
  · rename_i hp
    have hn := hs.icmp hp
    constructor
    · intro h
      obtain ⟨h1, h2, h3, h4⟩ := readsSvc_wide h
      have := icmpCode_unique (icmpCode_reads hs) h4
      exact ⟨h1.symm, by rw [hn.1, h2]; exact .nothing, by rw [hn.2, h3]; exact .nothing, this.1, this.2⟩
    · intro h
      have h2 := h.src
      have h3 := h.dst
      rw [hn.1] at h2
      rw [hn.2] at h3
      have e : x = ⟨s.protocol, .nothing, .nothing, s.icmpType, s.icmpCode⟩ := by
        cases x
        simp only [SvcShown.mk.injEq]
        exact ⟨h.protocol.symm, portIs_none h2, portIs_none h3, h.type.symm, h.code.symm⟩
      rw [e]
      exact .icmp hp (icmpCode_reads hs)
  · rename_i hp
    have hn := hs.other hp
    constructor
    · intro h
      obtain ⟨h1, h2, h3, h4, h5⟩ := readsSvc_two h
      exact ⟨h1.symm, (port_iff nm hs.src _).1 h4, (port_iff nm hs.dst _).1 h5, by rw [hn.1, h2], by rw [hn.2, h3]⟩
    · intro h
      have e : x = ⟨s.protocol, x.src, x.dst, none, none⟩ := by
        have h1 := h.protocol
        have h2 := h.type
        have h3 := h.code
        cases x
        simp only [SvcShown.mk.injEq, true_and]
        exact ⟨h1.symm, h2.symm.trans hn.1, h3.symm.trans hn.2⟩
      rw [e]
      exact .ports hp ((port_iff nm hs.src _).2 h.src) ((port_iff nm hs.dst _).2 h.dst)

theorem member_iff (nm : Nat → String) (m : SvcMember) (hm : SvcMemberOk m) (x : MemberShown) : ReadsMember (memberRow nm m) x ↔ MemberIs nm m x := by
  have link : ∀ {c : Cell} {x : MemberShown}, ReadsMember (.link c) x → match x with
      | .service _ => False
      | .object n => ReadsProto c (.serviceObject n)
      | .group n => ReadsProto c (.serviceGroup n) := by
    intro c x h
    cases h with
    | object n => exact .serviceObject n
    | group n => exact .serviceGroup n
  cases m with
  | svc s =>
    constructor
    · intro h
      change ReadsMember (.service (svcCells nm s)) x at h
      cases h with
      | service h => exact .service ((C118_service nm s hm _).1 h)
    · intro h
      cases h with
      | service h => exact .service ((C118_service nm s hm _).2 h)
  | obj o =>
    constructor
    · intro h
      have h := link h
      cases x with
      | service _ => exact h.elim
      | object n =>
        cases proto_unique h (.serviceObject (nm o))
        exact .object o
      | group n => cases proto_unique h (.serviceObject (nm o))
    · intro h; cases h; exact .object _
  | group o =>
    constructor
    · intro h
      have h := link h
      cases x with
      | service _ => exact h.elim
      | object n => cases proto_unique h (.serviceGroup (nm o))
      | group n =>
        cases proto_unique h (.serviceGroup (nm o))
        exact .group o
    · intro h; cases h; exact .group _

theorem portMember_iff (nm : Nat → String) (m : PortMember) (hm : PortMemberOk m) (x : PortShown) : ReadsPortVal (portMemberCell nm m) x ↔ PortMemberIs nm m x := by
  cases m with
  | port op num =>
    cases num with
    | none =>
      refine (port_iff nm (p := some (.port op "None")) hm x).trans ⟨fun h => ?_, fun h => ?_⟩ <;> cases h
      · exact .lost _
      · exact .single _ _
    | some num =>
      refine (port_iff nm (p := some (.port op num)) hm x).trans ⟨fun h => ?_, fun h => ?_⟩ <;> cases h
      · exact .single _ _
      · exact .single _ _
  | range a b =>
    refine (port_iff nm (p := some (.range a b)) hm x).trans ⟨fun h => ?_, fun h => ?_⟩ <;> cases h
    · exact .range _ _
    · exact .range _ _
  | group o =>
    refine (port_iff nm (p := some (.group o)) trivial x).trans ⟨fun h => ?_, fun h => ?_⟩ <;> cases h
    · exact .group _
    · exact .group _

theorem icmpMember_iff (nm : Nat → String) (m : IcmpMember) (hm : IcmpMemberOk m) (x : IcmpShown) : ReadsIcmp (icmpMemberCell nm m) x ↔ IcmpMemberIs nm m x := by
  cases m with
  | icmp t =>
    refine (icmp_iff nm (i := some (.icmp t none)) hm (fun _ _ e => by cases e; rfl) x).trans ⟨fun h => ?_, fun h => ?_⟩ <;> cases h
    · exact .type _
    · exact .type _ _
  | group o =>
    refine (icmp_iff nm (i := some (.group o)) trivial (fun _ _ e => by cases e) x).trans ⟨fun h => ?_, fun h => ?_⟩ <;> cases h
    · exact .group _
    · exact .group _

theorem protoMember_iff (nm : Nat → String) (m : ProtoMember) (x : ProtoShown) : ReadsProto (protoMemberCell nm m) x ↔ ProtoMemberIs nm m x := by
  cases m with
  | protocol s =>
    refine (proto_iff nm (.name s) x).trans ⟨fun h => ?_, fun h => ?_⟩ <;> cases h
    · exact .name _
    · exact .name _
  | group o =>
    refine (proto_iff nm (.protoGroup o) x).trans ⟨fun h => ?_, fun h => ?_⟩ <;> cases h
    · exact .group _
    · exact .protocolGroup _

/-! ## sections -/

theorem anchor_inj {p a b : String} (h : p ++ a = p ++ b) : a = b := by
  have := congrArg String.toList h
  simp only [String.toList_append, List.append_cancel_left_eq] at this
  exact String.toList_inj.1 this

/-- What the section of a definition is read as. -/
theorem section_iff (nm : Nat → String) (i : Item) (hi : DefOk i) (c : Section) (hc : sectionOf nm i = some c) (x : SectionShown) : ReadsSection c x ↔ SectionIs nm i x := by
  cases i <;> simp only [sectionOf, Option.some.injEq, reduceCtorEq] at hc
  case svcObj o n s d =>
    constructor
    · intro h
      cases h <;> simp only [Section.mk.injEq, SectionBody.service.injEq, reduceCtorEq, and_false] at hc
      rename_i h
      obtain ⟨-, h1, rfl⟩ := hc
      rw [← String.toList_inj.1 h1]
      exact .service ((C118_service nm s hi _).1 h)
    · intro h; subst hc; cases h with | service h => exact .service ((C118_service nm s hi _).2 h)
  case svcGroup o n l d =>
    constructor
    · intro h
      cases h <;> simp only [Section.mk.injEq, SectionBody.services.injEq, reduceCtorEq, and_false] at hc
      rename_i h
      obtain ⟨-, h1, rfl⟩ := hc
      rw [← String.toList_inj.1 h1]
      exact .services ((each_iff (fun m hm => member_iff nm m (hi m hm)) _).1 h)
    · intro h; subst hc; cases h with | services h => exact .services ((each_iff (fun m hm => member_iff nm m (hi m hm)) _).2 h)
  case portGroup o n p l d =>
    constructor
    · intro h
      cases h <;> simp only [Section.mk.injEq, SectionBody.ports.injEq, reduceCtorEq, and_false] at hc
      rename_i h
      obtain ⟨-, h1, h2, rfl⟩ := hc
      simp only [protocolCell, Cell.text.injEq] at h2
      rw [← String.toList_inj.1 h1, ← String.toList_inj.1 h2]
      exact .ports ((each_iff (fun m hm => portMember_iff nm m (hi m hm)) _).1 h)
    · intro h; subst hc; cases h with | ports h => exact .ports ((each_iff (fun m hm => portMember_iff nm m (hi m hm)) _).2 h)
  case icmpGroup o n l d =>
    constructor
    · intro h
      cases h <;> simp only [Section.mk.injEq, SectionBody.icmp.injEq, reduceCtorEq, and_false] at hc
      rename_i h
      obtain ⟨-, h1, rfl⟩ := hc
      rw [← String.toList_inj.1 h1]
      exact .icmp ((each_iff (fun m hm => icmpMember_iff nm m (hi m hm)) _).1 h)
    · intro h; subst hc; cases h with | icmp h => exact .icmp ((each_iff (fun m hm => icmpMember_iff nm m (hi m hm)) _).2 h)
  case protoGroup o n l d =>
    constructor
    · intro h
      cases h <;> simp only [Section.mk.injEq, SectionBody.protocols.injEq, reduceCtorEq, and_false] at hc
      rename_i h
      obtain ⟨-, h1, rfl⟩ := hc
      rw [← String.toList_inj.1 h1]
      exact .protocols ((each_iff (fun m _ => protoMember_iff nm m) _).1 h)
    · intro h; subst hc; cases h with | protocols h => exact .protocols ((each_iff (fun m _ => protoMember_iff nm m) _).2 h)

/-- **C118, FWSM/ASA.** Whatever text is accepted, the section of every definition of services, ports, icmp types or protocols is read as that definition and as nothing else: its name and its members, in order. -/
theorem C118_fwsm (g : Lookup.Guard) (t u : List Char) (items : List Item) (h : parseFile g t = .ok items u) (i : Item) (hi : i ∈ items) (nm : Nat → String) (c : Section)
    (hc : sectionOf nm i = some c) (x : SectionShown) : ReadsSection c x ↔ SectionIs nm i x :=
  section_iff nm i (parseFile_defs h i hi) c hc x

/-- **C118, IOS.** The same for whatever IOS text is accepted. -/
theorem C118_ios (g : Lookup.Guard) (t u : List Char) (items : List IosText.Item) (h : IosText.parseFile g t = .ok items u) (i : Item) (hi : IosText.Item.base i ∈ items) (nm : Nat → String) (c : Section)
    (hc : sectionOf nm i = some c) (x : SectionShown) : ReadsSection c x ↔ SectionIs nm i x :=
  section_iff nm i (IosText.parseFile_defs h _ hi) c hc x

theorem each_exists {α β : Type} {S : α → β → Prop} {l : List α} (h : ∀ a ∈ l, ∃ x, S a x) : ∃ xs, Each S l xs := by
  induction l with
  | nil => exact ⟨[], .nil⟩
  | cons a l ih =>
    obtain ⟨x, hx⟩ := h a List.mem_cons_self
    obtain ⟨xs, hxs⟩ := ih (fun b hb => h b (List.mem_cons_of_mem _ hb))
    exact ⟨x :: xs, .cons hx hxs⟩

theorem svc_exists (nm : Nat → String) {s : Svc} (hs : SvcOk s) : ∃ x, SvcIs nm s x := by
  obtain ⟨a, ha, -⟩ := port_reads nm hs.src
  obtain ⟨b, hb, -⟩ := port_reads nm hs.dst
  exact ⟨⟨s.protocol, a, b, s.icmpType, s.icmpCode⟩, rfl, ha, hb, rfl, rfl⟩

theorem section_exists (nm : Nat → String) {i : Item} (hi : DefOk i) (hk : Sectioned i) : ∃ x, SectionIs nm i x := by
  cases hk with
  | service o n s d =>
    obtain ⟨x, hx⟩ := svc_exists nm hi
    exact ⟨_, .service hx⟩
  | services o n l d =>
    obtain ⟨xs, hx⟩ := each_exists (S := MemberIs nm) (l := l) (fun m hm => by
      cases m with
      | svc s =>
        obtain ⟨x, hx⟩ := svc_exists nm (hi _ hm)
        exact ⟨_, .service hx⟩
      | obj o => exact ⟨_, .object o⟩
      | group o => exact ⟨_, .group o⟩)
    exact ⟨_, .services hx⟩
  | ports o n p l d =>
    obtain ⟨xs, hx⟩ := each_exists (S := PortMemberIs nm) (l := l) (fun m hm => by
      cases m with
      | port op num => cases num with
        | none => exact ⟨_, .lost op⟩
        | some num => exact ⟨_, .single op num⟩
      | range a b => exact ⟨_, .range a b⟩
      | group o => exact ⟨_, .group o⟩)
    exact ⟨_, .ports hx⟩
  | icmp o n l d =>
    obtain ⟨xs, hx⟩ := each_exists (S := IcmpMemberIs nm) (l := l) (fun m hm => by
      cases m with
      | icmp t => exact ⟨_, .type t⟩
      | group o => exact ⟨_, .group o⟩)
    exact ⟨_, .icmp hx⟩
  | protocols o n l d =>
    obtain ⟨xs, hx⟩ := each_exists (S := ProtoMemberIs nm) (l := l) (fun m hm => by
      cases m with
      | protocol t => exact ⟨_, .name t⟩
      | group o => exact ⟨_, .group o⟩)
    exact ⟨_, .protocols hx⟩

/-- Every such definition of an accepted text has a section that can be read, under its own name. -/
theorem C118_shown (g : Lookup.Guard) (t u : List Char) (items : List Item) (h : parseFile g t = .ok items u) (i : Item) (hi : i ∈ items) (hk : Sectioned i) (nm : Nat → String) :
    ∃ c x, sectionOf nm i = some c ∧ ReadsSection c x := by
  obtain ⟨x, hx⟩ := section_exists nm (parseFile_defs h i hi) hk
  have : ∃ c, sectionOf nm i = some c := by cases hk <;> exact ⟨_, rfl⟩
  obtain ⟨c, hc⟩ := this
  exact ⟨c, x, hc, (C118_fwsm g t u items h i hi nm c hc x).2 hx⟩

/-- The same for IOS texts. -/
theorem C118_shown_ios (g : Lookup.Guard) (t u : List Char) (items : List IosText.Item) (h : IosText.parseFile g t = .ok items u) (i : Item) (hi : IosText.Item.base i ∈ items) (hk : Sectioned i) (nm : Nat → String) :
    ∃ c x, sectionOf nm i = some c ∧ ReadsSection c x := by
  obtain ⟨x, hx⟩ := section_exists nm (IosText.parseFile_defs h _ hi) hk
  have : ∃ c, sectionOf nm i = some c := by cases hk <;> exact ⟨_, rfl⟩
  obtain ⟨c, hc⟩ := this
  exact ⟨c, x, hc, (C118_ios g t u items h i hi nm c hc x).2 hx⟩

/-- Equal sections are sections of definitions with the same name and the same members, up to objects of the same name. -/
theorem C118_equal_sections (g g' : Lookup.Guard) (t u t' u' : List Char) (items items' : List Item) (h : parseFile g t = .ok items u) (h' : parseFile g' t' = .ok items' u')
    (i i' : Item) (hi : i ∈ items) (hi' : i' ∈ items') (nm nm' : Nat → String) (c : Section) (hc : sectionOf nm i = some c) (hc' : sectionOf nm' i' = some c) (x : SectionShown) :
    SectionIs nm i x ↔ SectionIs nm' i' x := by
  rw [← C118_fwsm g t u items h i hi nm c hc, ← C118_fwsm g' t' u' items' h' i' hi' nm' c hc']

/-! ## the hypotheses are met -/

/-- The section of the first definition of a FWSM text that is accepted. -/
def firstSection (t : String) : Option Section :=
  match parseFile Lookup.tatsuGuard t.toList with
  | .ok (i :: _) _ => sectionOf (fun _ => "") i
  | _ => none

def firstIosSection (t : String) : Option Section :=
  match IosText.parseFile Lookup.tatsuGuard t.toList with
  | .ok (.base i :: _) _ => sectionOf (fun _ => "") i
  | _ => none

/-- A group with ports and an icmp type and code, and an IOS group with an icmp type. -/
theorem C118_sample :
    firstSection "object-group service web\n service-object tcp destination range 80 90\n service-object icmp echo 3\n" =
      some ⟨"service_group_web", "web".toList, .services [.service (.two (.text "tcp".toList) (.text []) (.text "80-90".toList)), .service (.wide (.text "icmp".toList) "echo/3".toList)]⟩ ∧
    firstIosSection "object-group service web\n icmp echo\n" =
      some ⟨"service_group_web", "web".toList, .services [.service (.wide (.text "icmp".toList) "echo".toList)]⟩ := by
  constructor <;> decide +kernel

end Acltk.Cells
