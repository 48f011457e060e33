import Verif.Spec.NatRowSpec
import Verif.Props.Row
import Verif.Lemmas.NatWords
/-!
# C120: what the rows of a NAT entry say
-/
namespace Acltk.Cells
open Acltk Acltk.NatCmd
open Acltk.FwsmText (PortOk)

/-! ## nodes -/

theorem written_text {s s' : List Char} (h : Written (.text s) s') : s' = s := by
  cases h; rfl

theorem reads_text {s : List Char} {x : Shown} (h : Reads (.text s) x) (h1 : s ≠ "any".toList) (h2 : s ≠ "any4".toList) (h3 : s ≠ "any6".toList) (h4 : '/' ∉ s) : ∃ a, ipAddress s = .ok a := by
  generalize hc : Cell.text s = c at h
  cases h with
  | address hw ha => subst hc; rw [written_text hw] at ha; exact ⟨_, ha⟩
  | network hw hm => subst hc; rw [written_text hw] at hm; exact absurd hm h4
  | wildcard => cases hc; exact absurd (by simp) h4
  | any => cases hc; exact absurd rfl h1
  | any4 => cases hc; exact absurd rfl h2
  | any6 => cases hc; exact absurd rfl h3
  | group => cases hc
  | object => cases hc
  | interface => cases hc

theorem not_reads_empty (x : Shown) : ¬ Reads (.text []) x := by
  intro h
  obtain ⟨a, ha⟩ := reads_text h (by decide) (by decide) (by decide) (by decide)
  have : (ipAddress []).toOption = none := by decide +kernel
  rw [ha] at this
  cases this

theorem readsNode_inv {c : Cell} {x : Option Shown} (h : ReadsNode c x) : match x with
    | none => c = .text []
    | some y => Reads c y := by
  cases h with
  | missing => rfl
  | host h => exact h

theorem node_iff (t : Option String) {w : Bool} {n : Option Node'} (hn : FwsmText.SideOk w n) (x : Option Shown) : ReadsNode (nodeCell t n) x ↔ NodeIs n x := by
  rcases hn with rfl | ⟨h, rfl, hc⟩
  · constructor
    · intro h
      cases x with
      | none => exact .missing
      | some y => exact absurd (readsNode_inv h) (not_reads_empty y)
    · intro h; cases h; exact .missing
  · constructor
    · intro hr
      cases x with
      | none =>
        obtain ⟨y, _, hy⟩ := shown t hc
        have e : hostCell t h = .text [] := readsNode_inv hr
        rw [e] at hy
        exact absurd hy (not_reads_empty y)
      | some y => exact .host ((C115_host t h hc y).1 (readsNode_inv hr))
    · intro hi
      cases hi with
      | host hi => exact .host ((C115_host t h hc _).2 hi)

theorem interface_iff (n m : String) : Reads (hostCell none (.iface n)) (.interface m) ↔ n = m := by
  rw [C115_host none (wild := false) (.iface n) (.iface n)]
  constructor
  · intro h; cases h; rfl
  · rintro rfl; exact .interface n

/-! ## fallbacks -/

def fallbackV6 : Option Fallback → Bool
  | some f => f.ipv6
  | none => false

theorem fallback_iff (f : Option Fallback) (hf : ∀ g, f = some g → g.interface ≠ some none) (x : Option String) (v : Bool) :
    (ReadsFallback (fallbackCell f) x ∧ fallbackV6 f = v) ↔ FallbackIs f x v := by
  constructor
  · rintro ⟨h, rfl⟩
    match f, hf, h with
    | none, _, h => cases h; exact .none
    | some ⟨none, v⟩, _, h => cases h; exact .noInterface v
    | some ⟨some none, v⟩, hf, _ => exact absurd rfl (hf _ rfl)
    | some ⟨some (some n), v⟩, _, h =>
      have : ReadsFallback (some (.link ("interface_" ++ n) n.toList)) x := h
      generalize hc : some (Cell.link ("interface_" ++ n) n.toList) = c at this
      cases this with
      | none => cases hc
      | interface m =>
        simp only [Option.some.injEq, Cell.link.injEq] at hc
        obtain rfl := String.toList_inj.1 hc.2
        exact .interface n v
  · intro h
    cases h with
    | none => exact ⟨.none, rfl⟩
    | noInterface => exact ⟨.none, rfl⟩
    | interface n => exact ⟨.interface n, rfl⟩

/-! ## services -/

/-- `PortText` as a test. -/
def isPortText (l : List Char) : Bool := Words.ports.any (fun x => x.toList == l) || (l != [] && l.all Char.isDigit)

theorem isPortText_of {w : String} (h : PortText w) : isPortText w.toList = true := by
  unfold isPortText
  rcases h with h | h
  · rw [Bool.or_eq_true]
    exact .inl (List.any_eq_true.2 ⟨w, h, by simp⟩)
  · rw [Bool.or_eq_true]
    refine .inr ?_
    rw [Bool.and_eq_true]
    exact ⟨by simpa using h.1, List.all_eq_true.2 h.2⟩

/-- No service is called like a range of ports (`non500-isakmp` ends like one). -/
theorem port_halves : ∀ w ∈ Words.ports, ∀ z ∈ afterHyphen w.toList, (isPortText (w.toList.take (w.toList.length - z.length - 1)) && isPortText z) = false := by decide +kernel

theorem PortText.ne {w : String} (h : PortText w) : w.toList ≠ [] := by
  rcases h with h | h
  · exact (by decide +kernel : ∀ w ∈ Words.ports, w.toList ≠ []) w h
  · exact toList_ne h.1

/-- A port is no range of two ports. -/
theorem PortText.no_range {w a b : String} (h : PortText w) (ha : PortText a) (hb : PortText b) (e : w.toList = a.toList ++ '-' :: b.toList) : False := by
  have hw := hyphen_service h (by rw [e]; simp)
  have h1 := port_halves w hw b.toList (by rw [e]; exact mem_afterHyphen _ _)
  have h2 : w.toList.take (w.toList.length - b.toList.length - 1) = a.toList := by
    rw [e]
    have : (a.toList ++ '-' :: b.toList).length - b.toList.length - 1 = a.toList.length := by
      simp only [List.length_append, List.length_cons]; omega
    rw [this]
    simp
  rw [h2, isPortText_of ha, isPortText_of hb] at h1
  cases h1

theorem word_no_cond {w : String} (h : PortText w) (x : PortShown) : ¬ ReadsPortVal (.text w.toList) x := by
  intro hr
  have hi := port_inv hr
  cases x with
  | nothing => exact h.ne (Cell.text.inj hi)
  | single op num =>
    have := Cell.text.inj hi.2
    exact h.no_blank (by rw [this]; simp)
  | range a b => exact h.no_range hi.1 hi.2.1 (Cell.text.inj hi.2.2)
  | group n => cases hi

def NatPortInv (c : Cell) : NatPortShown → Prop
  | .word w => PortText w ∧ c = .text w.toList
  | .cond x => ReadsPortVal c x

theorem natPort_inv {c : Cell} {x : NatPortShown} (h : ReadsNatPort c x) : NatPortInv c x := by
  cases h with
  | word w h => exact ⟨h, rfl⟩
  | cond h => exact h

theorem natPort_iff (nm : Nat → String) {p : Option PortRef} (hp : FwsmText.PortRefOk p) (x : NatPortShown) : ReadsNatPort (natPortCell nm p) x ↔ NatPortIs nm p x := by
  match p, hp with
  | none, _ =>
    rw [show natPortCell nm none = .text [] from rfl]
    constructor
    · intro h
      cases x with
      | word w => exact absurd (Cell.text.inj (natPort_inv h).2).symm (natPort_inv h).1.ne
      | cond x =>
        have := (port_iff nm (p := none) trivial x).1 (natPort_inv h)
        cases this
        exact .none
    · intro h; cases h; exact .cond .nothing
  | some (.word w), hp =>
    rw [show natPortCell nm (some (.word w)) = .text w.toList from rfl]
    constructor
    · intro h
      cases x with
      | word v =>
        obtain rfl := String.toList_inj.1 (Cell.text.inj (natPort_inv h).2)
        exact .word w
      | cond x => exact absurd (natPort_inv h) (word_no_cond hp x)
    · intro h; cases h; exact .word w hp
  | some (.cond v), hp =>
    rw [show natPortCell nm (some (.cond v)) = portValCell nm (some v) from rfl]
    constructor
    · intro h
      cases x with
      | word w =>
        obtain ⟨y, _, hy⟩ := port_reads nm (p := some v) hp
        rw [(natPort_inv h).2] at hy
        exact absurd hy (word_no_cond (natPort_inv h).1 y)
      | cond x => exact .cond ((port_iff nm (p := some v) hp x).1 (natPort_inv h))
    · intro h
      cases h with
      | cond h => exact .cond ((port_iff nm (p := some v) hp _).2 h)

theorem natSvc_iff (nm : Nat → String) {s m : Option Svc} (h : FwsmText.SvcPairOk s m) (x : Option (String × NatPortShown × NatPortShown × NatPortShown × NatPortShown)) :
    ReadsNatSvc (s.map (fun s => (s.protocol.toList, natPortCell nm s.src, natPortCell nm s.dst, natSvcPort nm m Svc.src, natSvcPort nm m Svc.dst))) x ↔ NatSvcIs nm s m x := by
  rcases h with rfl | ⟨a, b, rfl, rfl, h1, h2, h3, h4⟩
  · constructor
    · intro h; cases h; exact .none m
    · intro h; cases h; exact .none
  · simp only [Option.map_some, natSvcPort]
    constructor
    · intro h
      generalize hc : some (a.protocol.toList, natPortCell nm a.src, natPortCell nm a.dst, natPortCell nm b.src, natPortCell nm b.dst) = c at h
      cases h with
      | none => cases hc
      | some p r1 r2 r3 r4 =>
        simp only [Option.some.injEq, Prod.mk.injEq] at hc
        obtain ⟨e0, rfl, rfl, rfl, rfl⟩ := hc
        obtain rfl := String.toList_inj.1 e0
        exact .some ((natPort_iff nm h1 _).1 r1) ((natPort_iff nm h2 _).1 r2) ((natPort_iff nm h3 _).1 r3) ((natPort_iff nm h4 _).1 r4)
    · intro h
      cases h with
      | some r1 r2 r3 r4 =>
        exact .some _ ((natPort_iff nm h1 _).2 r1) ((natPort_iff nm h2 _).2 r2) ((natPort_iff nm h3 _).2 r3) ((natPort_iff nm h4 _).2 r4)

/-! ## rows -/

theorem map_toList_inj {l m : List String} : l.map String.toList = m.map String.toList ↔ l = m := by
  constructor
  · intro h; exact (List.map_inj_right (f := String.toList) (fun _ _ e => String.toList_inj.1 e)).1 h
  · rintro rfl; rfl

theorem description_iff (d : Option String) (x : Option String) :
    (match d with | some d => if d = "" then none else some d.toList | none => none) = x.map String.toList ↔ x = d.filter (fun d => decide (d ≠ "")) := by
  cases d with
  | none => cases x <;> simp
  | some d =>
    by_cases hd : d = ""
    · subst hd; cases x <;> simp [Option.filter]
    · cases x with
      | none => simp [Option.filter, hd]
      | some y =>
        simp only [hd, ↓reduceIte, Option.map_some, Option.some.injEq, Option.filter, ne_eq, not_false_eq_true, decide_true]
        rw [String.toList_inj]
        exact eq_comm

/-- **C120.** The rows of an entry are read as that entry and as nothing else. -/
theorem C120_row_partial (nm : Nat → String) (t : Fin 4 → Option String) {w : Bool} (n : Nat') (h0 : FwsmText.NatOk w n) (hn : FwsmText.NatWords n) (x : NatShown) :
    NatReads (natRow nm t n) x ↔ NatIs nm n x := by
  have e1 := interface_iff n.real.iface x.iface
  have e2 := node_iff (t 0) h0.1 x.src
  have e3 := node_iff (t 1) h0.2.1 x.dst
  have e4 := interface_iff n.mapped.iface x.miface
  have e5 := node_iff (t 2) h0.2.2.1 x.msrc
  have e6 := fallback_iff n.mapped.fallback hn.fallback x.fallback x.ipv6
  have e7 := node_iff (t 3) h0.2.2.2 x.mdst
  have e8 := natSvc_iff nm hn.service x.service
  have e9 := description_iff n.description x.description
  have et : printed n.mapped.type = x.type.toList ↔ n.mapped.type = some x.type := by
    cases ht : n.mapped.type with
    | none => exact absurd ht hn.type
    | some y =>
      show y.toList = x.type.toList ↔ _
      rw [String.toList_inj, Option.some.injEq]
  have eo : (natRow nm t n).options = x.options.map String.toList ↔ x.options = n.options.filter (fun k => decide (k ∉ ["auto", "after-auto", "after-object"])) :=
    map_toList_inj.trans eq_comm
  have e6' : (ReadsFallback (natRow nm t n).fallback x.fallback ∧ (natRow nm t n).ipv6 = x.ipv6) ↔ FallbackIs n.mapped.fallback x.fallback x.ipv6 := e6
  constructor
  · intro h
    exact ⟨e1.1 h.iface, e2.1 h.src, e3.1 h.dst, e4.1 h.miface, et.1 h.type, e5.1 h.msrc, e6'.1 ⟨h.fallback, h.ipv6⟩, e7.1 h.mdst, eo.1 h.options, e8.1 h.service, e9.1 h.description⟩
  · intro h
    exact ⟨e1.2 h.iface, e2.2 h.src, e3.2 h.dst, e4.2 h.miface, et.2 h.type, e5.2 h.msrc, (e6'.2 h.fallback).1, (e6'.2 h.fallback).2, e7.2 h.mdst, eo.2 h.options, e8.2 h.service, e9.2 h.description⟩

/-- What is known of the entries of an accepted text. -/
theorem accepted_nat {g : Lookup.Guard} {t u : List Char} {items : List FwsmText.Item} (h : FwsmText.parseFile g t = .ok items u) {i : FwsmText.Item} (hi : i ∈ items) {n : Nat'} (hn : NatIn n i) :
    FwsmText.NatOk false n ∧ FwsmText.NatWords n := by
  have h1 := FwsmText.parseFile_items h i hi
  have h2 := FwsmText.parseFile_nats h i hi
  cases hn with
  | command => exact ⟨h1, h2⟩
  | object => exact ⟨h1.2 _ rfl, h2 _ rfl⟩

/-- **C120, FWSM/ASA texts.** Whatever text is accepted, the rows of every NAT command and of the NAT line of every network object are read as that entry and as nothing else. -/
theorem C120_fwsm_partial (g : Lookup.Guard) (t u : List Char) (items : List FwsmText.Item) (h : FwsmText.parseFile g t = .ok items u) (i : FwsmText.Item) (hi : i ∈ items) (n : Nat') (hn : NatIn n i)
    (nm : Nat → String) (names : Fin 4 → Option String) (x : NatShown) : NatReads (natRow nm names n) x ↔ NatIs nm n x :=
  C120_row_partial nm names n (accepted_nat h hi hn).1 (accepted_nat h hi hn).2 x

/-- Equal rows are rows of entries with the same interfaces, sources, destinations, kind, fallback, ports, options and description, up to objects of the same name. -/
theorem C120_equal_rows_partial (g g' : Lookup.Guard) (t u t' u' : List Char) (items items' : List FwsmText.Item) (h : FwsmText.parseFile g t = .ok items u) (h' : FwsmText.parseFile g' t' = .ok items' u')
    (i i' : FwsmText.Item) (hi : i ∈ items) (hi' : i' ∈ items') (n n' : Nat') (hn : NatIn n i) (hn' : NatIn n' i') (nm nm' : Nat → String) (names names' : Fin 4 → Option String)
    (he : natRow nm names n = natRow nm' names' n') (x : NatShown) : NatIs nm n x ↔ NatIs nm' n' x := by
  rw [← C120_fwsm_partial g t u items h i hi n hn nm names, ← C120_fwsm_partial g' t' u' items' h' i' hi' n' hn' nm' names', he]

/-- A node of a configuration is something that can be shown. -/
theorem node_shown {w : Bool} {n : Option Node'} (hn : FwsmText.SideOk w n) : ∃ x, NodeIs n x := by
  rcases hn with rfl | ⟨h, rfl, hc⟩
  · exact ⟨_, .missing⟩
  · obtain ⟨x, hx, _⟩ := shown none hc
    exact ⟨_, .host hx⟩

theorem natPort_shown (nm : Nat → String) {p : Option PortRef} (hp : FwsmText.PortRefOk p) : ∃ x, NatPortIs nm p x := by
  match p, hp with
  | none, _ => exact ⟨_, .none⟩
  | some (.word w), _ => exact ⟨_, .word w⟩
  | some (.cond v), hp =>
    obtain ⟨x, hx, _⟩ := port_reads nm (p := some v) hp
    exact ⟨_, .cond hx⟩

/-- The rows of every entry of an accepted text can be read. -/
theorem C120_readable (g : Lookup.Guard) (t u : List Char) (items : List FwsmText.Item) (h : FwsmText.parseFile g t = .ok items u) (i : FwsmText.Item) (hi : i ∈ items) (n : Nat') (hn : NatIn n i)
    (nm : Nat → String) (names : Fin 4 → Option String) : ∃ x, NatReads (natRow nm names n) x := by
  obtain ⟨h0, hw⟩ := accepted_nat h hi hn
  obtain ⟨a, ha⟩ := node_shown h0.1
  obtain ⟨b, hb⟩ := node_shown h0.2.1
  obtain ⟨c, hc⟩ := node_shown h0.2.2.1
  obtain ⟨d, hd⟩ := node_shown h0.2.2.2
  obtain ⟨ty, hty⟩ := Option.ne_none_iff_exists'.1 hw.type
  obtain ⟨f, v, hf⟩ : ∃ f v, FallbackIs n.mapped.fallback f v := by
    match hm : n.mapped.fallback with
    | none => exact ⟨_, _, .none⟩
    | some ⟨none, v⟩ => exact ⟨_, _, .noInterface v⟩
    | some ⟨some none, v⟩ => exact absurd rfl (hw.fallback _ hm)
    | some ⟨some (some m), v⟩ => exact ⟨_, _, .interface m v⟩
  obtain ⟨sv, hsv⟩ : ∃ sv, NatSvcIs nm n.real.service n.mapped.service sv := by
    rcases hw.service with e | ⟨p, q, e1, e2, h1, h2, h3, h4⟩
    · rw [e]; exact ⟨_, .none _⟩
    · obtain ⟨_, k1⟩ := natPort_shown nm h1
      obtain ⟨_, k2⟩ := natPort_shown nm h2
      obtain ⟨_, k3⟩ := natPort_shown nm h3
      obtain ⟨_, k4⟩ := natPort_shown nm h4
      rw [e1, e2]
      exact ⟨_, .some k1 k2 k3 k4⟩
  exact ⟨⟨n.real.iface, a, b, n.mapped.iface, ty, c, f, v, d, _, sv, _⟩,
    (C120_row_partial nm names n h0 hw _).2 ⟨rfl, ha, hb, rfl, hty, hc, hf, hd, rfl, hsv, rfl⟩⟩

/-- **C120 is violated by the service of the mapped side:** its protocol, icmp type and name are in no row. -/
theorem C120_violated_service (nm : Nat → String) (names : Fin 4 → Option String) (n : Nat') (s : NatCmd.Svc) (name : Option String) (p : String) (ty code : Option String) :
    natRow nm names { n with mapped := { n.mapped with service := some s } } =
      natRow nm names { n with mapped := { n.mapped with service := some { s with name := name, protocol := p, icmpType := ty, icmpCode := code } } } := rfl

/-- **C120 is violated by the type of a real service:** two services of icmp that differ in type or code have the same rows. -/
theorem C120_violated_icmp (nm : Nat → String) (names : Fin 4 → Option String) (n : Nat') (s : NatCmd.Svc) (name : Option String) (ty code : Option String) :
    natRow nm names { n with real := { n.real with service := some s } } =
      natRow nm names { n with real := { n.real with service := some { s with name := name, icmpType := ty, icmpCode := code } } } := rfl

/-- The entries of a text. -/
def nats (t : String) : List Nat' :=
  match FwsmText.parseFile Lookup.tatsuGuard t.toList with
  | .ok items _ => items.filterMap (fun i => match i with
    | .nat n => some n
    | .netObj _ _ n _ => n
    | _ => none)
  | _ => []

theorem nats_mem {t : String} {n : Nat'} (h : n ∈ nats t) : ∃ items u i, FwsmText.parseFile Lookup.tatsuGuard t.toList = .ok items u ∧ i ∈ items ∧ NatIn n i := by
  unfold nats at h
  split at h
  · rename_i items u hp
    obtain ⟨i, hi, he⟩ := List.mem_filterMap.1 h
    refine ⟨items, u, i, hp, hi, ?_⟩
    split at he
    · cases he; exact .command
    · cases he; exact .object _ _ _
    · cases he
  · cases h

theorem nats_get {t : String} {k : Nat} {f : Nat' → Bool} (h : ((nats t)[k]?).any f = true) : ∃ items u i n, FwsmText.parseFile Lookup.tatsuGuard t.toList = .ok items u ∧ i ∈ items ∧ NatIn n i ∧ f n = true := by
  cases hn : (nats t)[k]? with
  | none => rw [hn] at h; cases h
  | some n =>
    rw [hn] at h
    obtain ⟨items, u, i, h1, h2, h3⟩ := nats_mem (List.mem_of_getElem? hn)
    exact ⟨items, u, i, n, h1, h2, h3, h⟩

def natSample (k : Nat) : String :=
  match k with
  | 0 => "interface Vlan2\nobject network web\n host 10.0.0.5\n nat (any,Vlan2) static 192.0.2.5 service tcp 80 8080\n"
  | 1 => "interface Vlan2\nnat (any,Vlan2) after-auto 1 source dynamic any interface\n"
  | _ => "interface Vlan2\nobject network web\n host 10.0.0.5\nobject service h\n service tcp destination eq https\nnat (Vlan2,any) source static web web service h h dns inactive description the web\n"

/-- The hypotheses are met: a NAT line of an object with ports, a dynamic NAT behind an interface, a static one with services and a description. -/
theorem C120_sample :
    (∃ items u i n, FwsmText.parseFile Lookup.tatsuGuard (natSample 0).toList = .ok items u ∧ i ∈ items ∧ NatIn n i ∧
      decide (natRow (fun _ => "") (fun _ => none) n =
        { iface := .link "interface_any" "any".toList, src := .link "network_object_web" "web".toList, dst := .text "any".toList, miface := .link "interface_Vlan2" "Vlan2".toList,
          type := "static".toList, msrc := .text "192.0.2.5".toList, fallback := none, ipv6 := false, mdst := .text "any".toList, options := [],
          service := some ("tcp".toList, .text [], .text "80".toList, .text [], .text "80".toList), description := none }) = true) ∧
    (∃ items u i n, FwsmText.parseFile Lookup.tatsuGuard (natSample 1).toList = .ok items u ∧ i ∈ items ∧ NatIn n i ∧
      decide (natRow (fun _ => "") (fun _ => none) n =
        { iface := .link "interface_any" "any".toList, src := .text "any".toList, dst := .text [], miface := .link "interface_Vlan2" "Vlan2".toList,
          type := "dynamic".toList, msrc := .link "interface_Vlan2" "Vlan2".toList, fallback := none, ipv6 := false, mdst := .text [], options := [],
          service := none, description := none }) = true) ∧
    (∃ items u i n, FwsmText.parseFile Lookup.tatsuGuard (natSample 2).toList = .ok items u ∧ i ∈ items ∧ NatIn n i ∧
      (decide (n.mapped.service.map NatCmd.Svc.protocol = some "tcp") && decide (natRow (fun _ => "") (fun _ => none) n =
        { iface := .link "interface_Vlan2" "Vlan2".toList, src := .link "network_object_web" "web".toList, dst := .text [], miface := .link "interface_any" "any".toList,
          type := "static".toList, msrc := .link "network_object_web" "web".toList, fallback := none, ipv6 := false, mdst := .text [], options := ["dns".toList, "inactive".toList],
          service := some ("tcp".toList, .text [], .text "eq https".toList, .text [], .text "eq https".toList), description := some "the web".toList })) = true) :=
  ⟨nats_get (k := 0) (by decide +kernel), nats_get (k := 0) (by decide +kernel), nats_get (k := 0) (by decide +kernel)⟩

end Acltk.Cells
