import Verif.Spec.IfaceSpec
import Verif.Props.NetText
/-!
# C45, C56: interface blocks
-/
namespace Acltk.Ifc
open Acltk

theorem snocInd' {α : Type} {P : List α → Prop} (nil : P [])
    (snoc : ∀ l a, P l → P (l ++ [a])) : ∀ l, P l := by
  intro l
  have : ∀ r : List α, P r.reverse := by
    intro r
    induction r with
    | nil => exact nil
    | cons a r ih => rw [List.reverse_cons]; exact snoc _ _ ih
  simpa using this l.reverse

theorem detailLoop_append (s : Intf) (a b : List Detail) :
    detailLoop s (a ++ b) = match detailLoop s a with
      | .error e => .error e
      | .ok s' => detailLoop s' b := by
  induction a generalizing s with
  | nil => rfl
  | cons d t ih =>
    simp only [List.cons_append, detailLoop]
    cases detailStep s d with
    | error e => rfl
    | ok s' => exact ih s'

theorem interfaceOf_snoc (alias : String) (l : List Line) (x : Line) :
    interfaceOf alias (l ++ [x]) = match interfaceOf alias l with
      | .error e => .error e
      | .ok s => detailStep s x.detail := by
  unfold interfaceOf mkInterface
  rw [List.map_append, detailLoop_append]
  cases detailLoop { alias := alias } (l.map Line.detail) with
  | error e => rfl
  | ok s =>
    simp only [List.map_cons, List.map_nil, detailLoop]
    cases detailStep s x.detail <;> rfl

/-- What each kind of line does. -/
theorem step_line (s : Intf) (x : Line) : detailStep s x.detail =
    match x with
    | .ignored => .ok s
    | .nameif v => .ok { s with nameif := some v }
    | .description v => .ok { s with description := some v }
    | .ip a m => addAddr s (.ok (a, m))
    | .ipAccessGroup n d => .ok { s with accessGroups := dSet s.accessGroups ("ip-" ++ d) (n, d) }
    | .ipv6 a none => addAddr s (.ok (a, "128"))
    | .ipv6 a (some p) => addAddr s (.ok (a, p))
    | .ipv6Filter n d => .ok { s with accessGroups := dSet s.accessGroups ("ipv6-" ++ d) (n, d) }
    | .switch c => switchStep s c := by
  cases x with
  | ipv6 a p => cases p <;> rfl
  | ipAccessGroup n d => simp [Line.detail, detailStep, index, two, valIndex, addGroup]
  | ipv6Filter n d => simp [Line.detail, detailStep, index, two, valIndex, addGroup]
  | _ => rfl

/-- What an accepted line leaves in each attribute. -/
structure Effect (s s' : Intf) (x : Line) : Prop where
  nameif : s'.nameif = ((nameifOf x).or s.nameif)
  description : s'.description = ((descriptionOf x).or s.description)
  groups : s'.accessGroups = match groupOf x with
    | some (k, v) => dSet s.accessGroups k v
    | none => s.accessGroups
  addresses : ∃ l, s'.addresses = s.addresses ++ l ∧
    (addressOf x).toList.map (fun p => mkIfAddr p.1 p.2) = l.map .ok
  trunk : match trunkOf x with
    | some (.trunkSet l) => s'.trunk = some l
    | some (.trunkAdd l) => ∃ t, s.trunk = some t ∧ s'.trunk = some (t ++ l)
    | _ => s'.trunk = s.trunk
  alias : s'.alias = s.alias

theorem addAddr_effect {s s' : Intf} {a m : String} (h : addAddr s (.ok (a, m)) = .ok s') :
    ∃ p, mkIfAddr a m = .ok p ∧ s' = { s with addresses := s.addresses ++ [p] } := by
  unfold addAddr at h
  cases hm : mkIfAddr a m with
  | error e => simp [hm] at h
  | ok p => simp [hm] at h; exact ⟨p, rfl, h.symm⟩

theorem line_effect {s s' : Intf} {x : Line} (h : detailStep s x.detail = .ok s') : Effect s s' x := by
  rw [step_line] at h
  cases x with
  | ignored => simp only [Except.ok.injEq] at h; subst h; exact ⟨by simp [nameifOf], by simp [descriptionOf], rfl, ⟨[], by simp [addressOf]⟩, rfl, rfl⟩
  | nameif v => simp only [Except.ok.injEq] at h; subst h; exact ⟨by simp [nameifOf], by simp [descriptionOf], rfl, ⟨[], by simp [addressOf]⟩, rfl, rfl⟩
  | description v => simp only [Except.ok.injEq] at h; subst h; exact ⟨by simp [nameifOf], by simp [descriptionOf], rfl, ⟨[], by simp [addressOf]⟩, rfl, rfl⟩
  | ip a m =>
    obtain ⟨p, hp, rfl⟩ := addAddr_effect h
    exact ⟨by simp [nameifOf], by simp [descriptionOf], rfl, ⟨[p], by simp [addressOf, hp]⟩, rfl, rfl⟩
  | ipAccessGroup n d => simp only [Except.ok.injEq] at h; subst h; exact ⟨by simp [nameifOf], by simp [descriptionOf], rfl, ⟨[], by simp [addressOf]⟩, rfl, rfl⟩
  | ipv6 a p =>
    cases p with
    | none =>
      obtain ⟨p, hp, rfl⟩ := addAddr_effect h
      exact ⟨by simp [nameifOf], by simp [descriptionOf], rfl, ⟨[p], by simp [addressOf, hp]⟩, rfl, rfl⟩
    | some q =>
      obtain ⟨p, hp, rfl⟩ := addAddr_effect h
      exact ⟨by simp [nameifOf], by simp [descriptionOf], rfl, ⟨[p], by simp [addressOf, hp]⟩, rfl, rfl⟩
  | ipv6Filter n d => simp only [Except.ok.injEq] at h; subst h; exact ⟨by simp [nameifOf], by simp [descriptionOf], rfl, ⟨[], by simp [addressOf]⟩, rfl, rfl⟩
  | switch c =>
    cases c with
    | mode m =>
      simp only [switchStep, Except.ok.injEq] at h; subst h
      refine ⟨by simp [nameifOf], by simp [descriptionOf], rfl, ⟨[], by simp [addressOf]⟩, ?_, rfl⟩
      cases hs : s.switchport <;> simp [trunkOf, Intf.trunk, hs]
    | trunkSet l =>
      simp only [switchStep, Except.ok.injEq] at h; subst h
      exact ⟨by simp [nameifOf], by simp [descriptionOf], rfl, ⟨[], by simp [addressOf]⟩, by simp [trunkOf, Intf.trunk], rfl⟩
    | trunkAdd l =>
      simp only [switchStep] at h
      cases ht : (s.switchport.getD {}).trunk with
      | none => simp [ht] at h
      | some t =>
        simp only [ht, Except.ok.injEq] at h; subst h
        refine ⟨by simp [nameifOf], by simp [descriptionOf], rfl, ⟨[], by simp [addressOf]⟩, ?_, rfl⟩
        refine ⟨t, ?_, by simp [Intf.trunk]⟩
        cases hs : s.switchport with
        | none => simp [hs] at ht
        | some sp => simp [hs] at ht; simp [Intf.trunk, hs, ht]

/-- When a line is rejected. -/
theorem line_error (s : Intf) (x : Line) : (∃ e, detailStep s x.detail = .error e) ↔
    (∃ a m e, addressOf x = some (a, m) ∧ mkIfAddr a m = .error e) ∨
    (∃ l, trunkOf x = some (.trunkAdd l) ∧ s.trunk = none) := by
  have haddr : ∀ a m, (∃ e, addAddr s (.ok (a, m)) = .error e) ↔ ∃ e, mkIfAddr a m = .error e := by
    intro a m
    unfold addAddr
    cases hm : mkIfAddr a m <;> simp [hm]
  rw [step_line]
  cases x with
  | ip a m =>
    simp only [haddr, addressOf, trunkOf, Option.some.injEq, Prod.mk.injEq]
    exact ⟨fun ⟨e, h⟩ => Or.inl ⟨a, m, e, ⟨rfl, rfl⟩, h⟩, by
      rintro (⟨_, _, e, ⟨rfl, rfl⟩, h⟩ | ⟨_, h, _⟩)
      · exact ⟨e, h⟩
      · cases h⟩
  | ipv6 a p =>
    cases p with
    | none =>
      simp only [haddr, addressOf, trunkOf, Option.some.injEq, Prod.mk.injEq]
      exact ⟨fun ⟨e, h⟩ => Or.inl ⟨a, _, e, ⟨rfl, rfl⟩, h⟩, by
        rintro (⟨_, _, e, ⟨rfl, rfl⟩, h⟩ | ⟨_, h, _⟩)
        · exact ⟨e, h⟩
        · cases h⟩
    | some q =>
      simp only [haddr, addressOf, trunkOf, Option.some.injEq, Prod.mk.injEq]
      exact ⟨fun ⟨e, h⟩ => Or.inl ⟨a, _, e, ⟨rfl, rfl⟩, h⟩, by
        rintro (⟨_, _, e, ⟨rfl, rfl⟩, h⟩ | ⟨_, h, _⟩)
        · exact ⟨e, h⟩
        · cases h⟩
  | switch c =>
    cases c with
    | trunkAdd l =>
      simp only [switchStep]
      cases hs : s.switchport with
      | none => simp [addressOf, trunkOf, Intf.trunk, hs]
      | some sp => cases ht : sp.trunk <;> simp [addressOf, trunkOf, Intf.trunk, hs, ht]
    | _ => simp [switchStep, addressOf, trunkOf]
  | _ => simp [addressOf, trunkOf]

/-- The trunk list after a list of trunk commands, and whether it is defined. -/
theorem trunk_of_block (alias : String) (lines : List Line) (i : Intf)
    (h : interfaceOf alias lines = .ok i) :
    (lines.filterMap trunkOf = [] ∧ i.trunk = none) ∨
    ∃ pre l adds, lines.filterMap trunkOf = pre ++ .trunkSet l :: adds ∧ AllAdds adds ∧
      i.trunk = some (l ++ adds.flatMap addedOf) := by
  induction lines using snocInd' generalizing i with
  | nil =>
    left
    simp only [interfaceOf, mkInterface, List.map_nil, detailLoop, Except.ok.injEq] at h
    subst h; exact ⟨rfl, rfl⟩
  | snoc lines x ih =>
    rw [interfaceOf_snoc] at h
    cases hs : interfaceOf alias lines with
    | error e => simp [hs] at h
    | ok s =>
      rw [hs] at h
      have E := line_effect h
      have ih := ih s hs
      have htr := E.trunk
      rw [List.filterMap_append]
      cases hx : trunkOf x with
      | none =>
        rw [hx] at htr
        simp only at htr
        simpa [List.filterMap_cons, hx, htr] using ih
      | some c =>
        have hcase : (∃ l, c = .trunkSet l) ∨ ∃ l, c = .trunkAdd l := by
          cases x with
          | switch c' => cases c' <;> simp [trunkOf] at hx <;> simp [← hx]
          | _ => simp [trunkOf] at hx
        rcases hcase with ⟨l, rfl⟩ | ⟨l, rfl⟩
        · right
          rw [hx] at htr
          refine ⟨lines.filterMap trunkOf, l, [], by simp [hx], by simp [AllAdds], ?_⟩
          simpa using htr
        · rw [hx] at htr
          obtain ⟨t, ht, ht'⟩ := htr
          rcases ih with ⟨-, h2⟩ | ⟨pre, l', adds, h1, h2, h3⟩
          · rw [h2] at ht; cases ht
          · right
            refine ⟨pre, l', adds ++ [.trunkAdd l], by simp [h1, hx], ?_, ?_⟩
            · intro c hc
              rcases List.mem_append.1 hc with hc | hc
              · exact h2 c hc
              · simp only [List.mem_singleton] at hc; exact ⟨l, hc⟩
            · rw [ht']
              rw [h3] at ht
              cases ht
              simp [addedOf]

/-- **C45.** The trunk list of an interface is the list of the last `allowed vlan` command followed by
those of the later `add` commands, in order; without trunk commands there is none; an `add` with no
list before it raises. -/
theorem C45_trunk_list (alias : String) (lines : List Line) :
    (∀ i, interfaceOf alias lines = .ok i → lines.filterMap trunkOf = [] → i.trunk = none) ∧
    (∀ i pre l adds, interfaceOf alias lines = .ok i →
      lines.filterMap trunkOf = pre ++ .trunkSet l :: adds → AllAdds adds →
      i.trunk = some (l ++ adds.flatMap addedOf)) ∧
    (∀ v rest, lines.filterMap trunkOf = .trunkAdd v :: rest →
      ∃ e, interfaceOf alias lines = .error e) := by
  refine ⟨?_, ?_, ?_⟩
  · intro i h hn
    rcases trunk_of_block alias lines i h with ⟨-, h2⟩ | ⟨pre, l, adds, h1, -⟩
    · exact h2
    · rw [hn] at h1; simp at h1
  · intro i pre l adds h hd ha
    rcases trunk_of_block alias lines i h with ⟨h1, -⟩ | ⟨pre', l', adds', h1, h2, h3⟩
    · rw [h1] at hd; simp at hd
    · rw [h3]
      rw [hd] at h1
      -- the last `trunkSet` is the same in both decompositions
      have huniq : ∀ (p p' : List Switch) (a a' : List Switch) (l l' : List Vlan),
          AllAdds a → AllAdds a' → p ++ .trunkSet l :: a = p' ++ .trunkSet l' :: a' →
          l = l' ∧ a = a' := by
        intro p
        induction p with
        | nil =>
          intro p' a a' l l' ha ha' he
          cases p' with
          | nil => simp at he; exact he
          | cons c t =>
            simp only [List.nil_append, List.cons_append, List.cons.injEq] at he
            have : Switch.trunkSet l' ∈ a := by rw [he.2]; simp
            obtain ⟨v, hv⟩ := ha _ this
            cases hv
        | cons c t ih =>
          intro p' a a' l l' ha ha' he
          cases p' with
          | nil =>
            simp only [List.nil_append, List.cons_append, List.cons.injEq] at he
            have : Switch.trunkSet l ∈ a' := by rw [← he.2]; simp
            obtain ⟨v, hv⟩ := ha' _ this
            cases hv
          | cons c' t' =>
            simp only [List.cons_append, List.cons.injEq] at he
            exact ih t' a a' l l' ha ha' he.2
      obtain ⟨rfl, rfl⟩ := huniq _ _ _ _ _ _ ha h2 h1
      rfl
  · intro v rest hd
    cases h : interfaceOf alias lines with
    | error e => exact ⟨e, rfl⟩
    | ok i =>
      exfalso
      -- by induction: before the first trunk command the list is undefined
      have : ∀ (lines : List Line) i, interfaceOf alias lines = .ok i →
          ∀ v rest, lines.filterMap trunkOf ≠ .trunkAdd v :: rest := by
        intro lines
        induction lines using snocInd' with
        | nil => intro i _ v rest hd; simp at hd
        | snoc lines x ih =>
          intro i h v rest hd
          rw [interfaceOf_snoc] at h
          cases hs : interfaceOf alias lines with
          | error e => simp [hs] at h
          | ok s =>
            rw [hs] at h
            rw [List.filterMap_append] at hd
            cases hl : lines.filterMap trunkOf with
            | cons c t =>
              rw [hl, List.cons_append, List.cons.injEq] at hd
              exact ih s hs v t (by rw [hl, hd.1])
            | nil =>
              rw [hl, List.nil_append] at hd
              have hx : trunkOf x = some (.trunkAdd v) := by
                cases hx : trunkOf x with
                | none => simp [hx] at hd
                | some c => simp [hx] at hd; rw [hd.1]
              have htr := (line_effect h).trunk
              rw [hx] at htr
              obtain ⟨t, ht, -⟩ := htr
              rcases trunk_of_block alias lines s hs with ⟨-, h2⟩ | ⟨pre, l, adds, h1, -⟩
              · rw [h2] at ht; cases ht
              · rw [hl] at h1; simp at h1
      exact this lines i h v rest hd

/-- **C56.** Every attribute of an interface is determined by its lines: the last nameif and
description, all addresses in order, and per access group key the last line. -/
theorem C56_interface_attributes (alias : String) (lines : List Line) (i : Intf)
    (h : interfaceOf alias lines = .ok i) :
    i.alias = alias ∧ i.nameif = (lines.filterMap nameifOf).getLast? ∧
    i.description = (lines.filterMap descriptionOf).getLast? ∧
    (lines.filterMap addressOf).map (fun p => mkIfAddr p.1 p.2) = i.addresses.map .ok ∧
    (∀ k, dGet i.accessGroups k =
      (((lines.filterMap groupOf).filter (fun p => p.1 == k)).map (·.2)).getLast?) := by
  induction lines using snocInd' generalizing i with
  | nil =>
    simp only [interfaceOf, mkInterface, List.map_nil, detailLoop, Except.ok.injEq] at h
    subst h; exact ⟨rfl, rfl, rfl, rfl, fun k => rfl⟩
  | snoc lines x ih =>
    rw [interfaceOf_snoc] at h
    cases hs : interfaceOf alias lines with
    | error e => simp [hs] at h
    | ok s =>
      rw [hs] at h
      have E := line_effect h
      obtain ⟨h1, h2, h3, h4, h5⟩ := ih s hs
      refine ⟨by rw [E.alias, h1], ?_, ?_, ?_, ?_⟩
      · rw [E.nameif, h2]
        cases hx : nameifOf x <;> simp [hx]
      · rw [E.description, h3]
        cases hx : descriptionOf x <;> simp [hx]
      · obtain ⟨l, hl, hl2⟩ := E.addresses
        rw [hl, List.map_append, List.filterMap_append, List.map_append, h4, ← hl2]
        cases hx : addressOf x <;> simp [hx]
      · intro k
        rw [E.groups, List.filterMap_append, List.filter_append, List.map_append]
        cases hx : groupOf x with
        | none => simp [hx, h5]
        | some p =>
          obtain ⟨k', v⟩ := p
          simp only [dGet_dSet]
          by_cases hk : k = k'
          · subst hk; simp [hx]
          · simp [hx, hk, Ne.symm hk, h5]

/-- **C56 (acceptance).** A block is rejected iff an address line is invalid or an `add` has no list
before it. -/
theorem C56_rejected_iff (alias : String) (lines : List Line) :
    (∃ e, interfaceOf alias lines = .error e) ↔
      (∃ p ∈ lines.filterMap addressOf, ∃ e, mkIfAddr p.1 p.2 = .error e) ∨
      (∃ v rest, lines.filterMap trunkOf = .trunkAdd v :: rest) := by
  induction lines using snocInd' with
  | nil => simp [interfaceOf, mkInterface, detailLoop]
  | snoc lines x ih =>
    rw [interfaceOf_snoc]
    cases hs : interfaceOf alias lines with
    | error e =>
      simp only [hs, Except.error.injEq, exists_eq', true_iff] at ih ⊢
      rcases ih with ⟨p, hp, he⟩ | ⟨v, rest, hr⟩
      · left; exact ⟨p, by rw [List.filterMap_append]; simp [hp], he⟩
      · right; exact ⟨v, rest ++ [x].filterMap trunkOf, by rw [List.filterMap_append, hr]; rfl⟩
    | ok s =>
      have ih' : ¬ ((∃ p ∈ lines.filterMap addressOf, ∃ e, mkIfAddr p.1 p.2 = .error e) ∨
          (∃ v rest, lines.filterMap trunkOf = .trunkAdd v :: rest)) := by
        rw [← ih, hs]; simp
      simp only
      rw [line_error, List.filterMap_append, List.filterMap_append]
      constructor
      · rintro (⟨a, m, e, h1, h2⟩ | ⟨l, h1, h2⟩)
        · left; exact ⟨(a, m), by simp [h1], e, h2⟩
        · right
          rcases trunk_of_block alias lines s hs with ⟨h3, -⟩ | ⟨pre, l', adds, -, -, h3⟩
          · exact ⟨l, [], by simp [h3, h1]⟩
          · rw [h3] at h2; cases h2
      · rintro (⟨p, hp, e, he⟩ | ⟨v, rest, hr⟩)
        · left
          rcases List.mem_append.1 hp with hp | hp
          · exact absurd (Or.inl ⟨p, hp, e, he⟩) ih'
          · cases hx : addressOf x with
            | none => simp [hx] at hp
            | some q => simp [hx] at hp; subst hp; exact ⟨p.1, p.2, e, rfl, he⟩
        · right
          cases hl : lines.filterMap trunkOf with
          | cons c t =>
            rw [hl, List.cons_append, List.cons.injEq] at hr
            exact absurd (Or.inr ⟨v, t, by rw [hl, hr.1]⟩) ih'
          | nil =>
            rw [hl, List.nil_append] at hr
            cases hx : trunkOf x with
            | none => simp [hx] at hr
            | some c =>
              simp [hx] at hr
              refine ⟨v, by rw [hr.1], ?_⟩
              rcases trunk_of_block alias lines s hs with ⟨-, h3⟩ | ⟨pre, l', adds, h3, -⟩
              · exact h3
              · rw [hl] at h3; simp at h3

/-- **C56 (meaning of an address line).** An address line with a valid address and mask gives that
address, inside the network of the addresses that agree with it on the mask. -/
theorem C56_address_line (address mask : String) (x : Addr) (n : Nat)
    (ha : ipAddress address.toList = .ok x) (hm : MaskText x.ver mask.toList n) :
    ∃ net, mkIfAddr address mask = .ok (x, net) ∧ (∀ y, net.Denotes y ↔ AgreeTop n y x) := by
  obtain ⟨net, h1, -, -, h2, -⟩ := C19_network_denotes _ _ _ _ ha hm
  exact ⟨net, by simp [mkIfAddr, h1, ha], h2⟩

/-- A block with every kind of line. -/
theorem C45_sample :
    interfaceOf "Gi0/1" [.ip "10.0.0.1" "255.255.255.0", .switch (.trunkSet [.one "1"]),
      .switch (.trunkSet [.one "5", .range "7" "9"]), .ignored, .ipAccessGroup "acl" "in",
      .switch (.trunkAdd [.one "11"]), .description "uplink"] =
      .ok { alias := "Gi0/1", addresses := [(⟨.v4, 0x0A000001⟩, ⟨.v4, 0x0A000000, 24⟩)],
            accessGroups := [("ip-in", ("acl", "in"))], description := some "uplink",
            switchport := some { trunk := some [.one "5", .range "7" "9", .one "11"] } } ∧
    interfaceOf "Gi0/2" [.switch (.trunkAdd [.one "11"])] = .error .attribute := by
  decide +kernel

end Acltk.Ifc
