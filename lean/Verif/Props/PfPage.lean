import Verif.Lemmas.PfHeap
/-!
# C111: the page of a pfSense configuration
-/
namespace Acltk.PfPage
open Acltk Acltk.Resolve Acltk.Page Acltk.Pf
open Acltk.Accepted (RuleAt NatAt HoldsCfg listOf)

variable {T : Type} {objs : Oid → Obj} {p : Pf.Parsed T}

/-- What something refers to: an object without a name of its own, or the last alias of its name. -/
def Ok (objs : Oid → Obj) (p : Pf.Parsed T) (o : Oid) : Prop :=
  size p ≤ o ∨ ∃ c n j, (c = .network ∨ c = .port) ∧ LastAlias p c (some n) j ∧ o = p.rules.length + j

theorem host_ok (h : Host) (hr : HostRef p h) {e : El} (he : HostAt objs p h e) : ∃ q, e = .obj q ∧ Ok objs p q := by
  cases hr with
  | any => obtain ⟨q, rfl, hq, -⟩ := he; exact ⟨q, rfl, Or.inl hq⟩
  | host => obtain ⟨q, rfl, hq, -⟩ := he; exact ⟨q, rfl, Or.inl hq⟩
  | net => obtain ⟨q, rfl, hq, -⟩ := he; exact ⟨q, rfl, Or.inl hq⟩
  | iface => obtain ⟨q, rfl, hq, -⟩ := he; exact ⟨q, rfl, Or.inl hq⟩
  | group n l j d h1 h2 => exact ⟨_, he j h1, Or.inr ⟨.network, n, j, Or.inl rfl, h1, rfl⟩⟩

theorem port_ok {v : Option PortRef} (hr : PortOk p v) {e : El} (he : PortAt objs p v e) : e = .none ∨ ∃ q, e = .obj q ∧ Ok objs p q := by
  cases hr with
  | none => exact Or.inl he
  | leaf => obtain ⟨q, rfl, hq, -⟩ := he; exact Or.inr ⟨q, rfl, Or.inl hq⟩
  | group n l j d h1 h2 => exact Or.inr ⟨_, he j h1, Or.inr ⟨.port, n, j, Or.inr rfl, h1, rfl⟩⟩

/-- What the objects of an accepted configuration with named aliases meet. -/
structure Facts (objs : Oid → Obj) (p : Pf.Parsed T) : Prop where
  objects : ObjectsOf objs p
  named : Named p
  refs : ∀ r ∈ p.rules, (HostRef p r.src.host ∧ PortOk p r.src.port) ∧ HostRef p r.dst.host ∧ PortOk p r.dst.port

theorem lt_of_get {α : Type} {l : List α} {k : Nat} {x : α} (h : l[k]? = some x) : k < l.length := (List.getElem?_eq_some_iff.1 h).1

theorem place (a b c : Nat) (h1 : b ≤ a) (h2 : a < b + c) : a - b < c ∧ a = b + (a - b) := ⟨by omega, by omega⟩

/-- Every object is one of a rule, of an alias, of an interface or a part. -/
theorem obj_cases (B : ObjectsOf objs p) (o : Oid) : (∃ r, p.rules[o]? = some r ∧ RuleObj objs p o r) ∨
    (∃ (j : Nat) (g : AliasGroup), o = p.rules.length + j ∧ p.groups[j]? = some g ∧ AliasAt objs p o g) ∨
    (∃ (j : Nat) (i : Ifc.Intf), o = p.rules.length + p.groups.length + j ∧ p.interfaces[j]? = some i ∧ objs o = .interface i.nameif) ∨
    size p ≤ o ∧ (objs o = .other ∨ objs o = .address none ∨ (∃ n, objs o = .netInterface n) ∨ ∃ n, objs o = .protocol n) := by
  rcases Nat.lt_or_ge o p.rules.length with h1 | h1
  · have := List.getElem?_eq_getElem h1
    exact Or.inl ⟨_, this, B.rule o _ this⟩
  · rcases Nat.lt_or_ge o (p.rules.length + p.groups.length) with h2 | h2
    · obtain ⟨hlt, eo⟩ := place o p.rules.length p.groups.length h1 h2
      have e := List.getElem?_eq_getElem hlt
      refine Or.inr (Or.inl ⟨o - p.rules.length, _, eo, e, ?_⟩)
      have := B.alias _ _ e
      rwa [← eo] at this
    · rcases Nat.lt_or_ge o (size p) with h3 | h3
      · obtain ⟨hlt, eo⟩ := place o (p.rules.length + p.groups.length) p.interfaces.length h2 h3
        have e := List.getElem?_eq_getElem hlt
        refine Or.inr (Or.inr (Or.inl ⟨_, _, eo, e, ?_⟩))
        have := B.iface _ _ e
        rwa [← eo] at this
      · exact Or.inr (Or.inr (Or.inr ⟨h3, B.parts o h3⟩))

/-- The members of a group are parts. -/
theorem member_part (B : ObjectsOf objs p) {o : Oid} {c : GroupClass} {n : String} {l : List El} (h : objs o = .group c n l) :
    ∀ x ∈ l, Part objs p x fun x => x = .address none ∨ x = .other := by
  rcases obj_cases B o with ⟨r, -, _, _, _, _, _, _, e, -⟩ | ⟨j, g, -, -, hg⟩ | ⟨j, i, -, -, e⟩ | ⟨-, e | e | ⟨m, e⟩ | ⟨m, e⟩⟩ <;>
    first | (rw [h] at e; cases e; done) | skip
  cases g <;> obtain ⟨es, e, -, hm⟩ := hg <;> (rw [h] at e; cases e; exact hm)

theorem rules_mem (m : Nat) (o : Oid) : o ∈ (tb m p).rules ↔ o < p.rules.length := by
  show o ∈ (PfFilter.build m p).rules ↔ _
  rw [PfFilter.rules_build, List.mem_range]

theorem nat_nil (m : Nat) : (tb m p).nat = [] := by
  obtain ⟨h1, h2, h3⟩ := PfFilter.nat_build m p
  show (PfFilter.build m p).nat1 ++ (PfFilter.build m p).nat2 ++ (PfFilter.build m p).nat3 = []
  rw [h1, h2, h3]
  rfl

theorem names_nil (m : Nat) : (tb m p).names = [] := by
  apply List.eq_nil_iff_forall_not_mem.2
  intro o ho
  have := (run_names (fun _ => "") (fun _ => []) (PfFilter.items m p) (PfFilter.items m p) o).1 ho
  rcases mem_items this with h | ⟨j, g, -, h⟩ | ⟨j, i, -, h⟩ | ⟨k, -, h⟩ | ⟨s, h⟩
  · cases h
  · cases g <;> cases h
  all_goals cases h

/-- What a rule refers to. -/
theorem field_ok (F : Facts objs p) {a : Oid} {o : Oid} (ha : a < p.rules.length) (hf : Field (info objs) a (.obj o)) : Ok objs p o := by
  have hr : p.rules[a]? = some p.rules[a] := List.getElem?_eq_getElem ha
  obtain ⟨pr, sh, sp, dh, dp, ic, e, h1, h2, h3, h4, h5, h6⟩ := F.objects.rule a _ hr
  obtain ⟨⟨r1, r2⟩, r3, r4⟩ := F.refs _ (List.mem_iff_getElem?.2 ⟨a, hr⟩)
  have hc := field_contents hf
  simp only [contents, e] at hc
  have part : ∀ {x : El} {w : Obj → Prop}, Part objs p x w → x = .obj o → Ok objs p o := by
    rintro x w ⟨q, rfl, hq, -⟩ ex
    cases ex
    exact Or.inl hq
  have host : ∀ {x : El}, (∃ q, x = .obj q ∧ Ok objs p q) → x = .obj o → Ok objs p o := by
    rintro x ⟨q, rfl, hq⟩ ex
    cases ex
    exact hq
  have port : ∀ {x : El}, (x = .none ∨ ∃ q, x = .obj q ∧ Ok objs p q) → x = .obj o → Ok objs p o := by
    rintro x (rfl | hq) ex
    · cases ex
    · exact host hq ex
  simp only [List.mem_append, List.mem_cons, List.not_mem_nil, or_false, Option.mem_toList] at hc
  rcases hc with hc | hc | hc | hc | hc | hc | hc
  · exact part h1 hc.symm
  · exact host (host_ok _ r1 h2) hc.symm
  · exact port (port_ok r2 h3) hc.symm
  · exact host (host_ok _ r3 h4) hc.symm
  · exact port (port_ok r4 h5) hc.symm
  · split at h6
    · rw [h6] at hc; cases hc
    · obtain ⟨x, hx, hp⟩ := h6
      rw [hx] at hc
      cases hc
      exact part hp rfl
  · unfold idEl at hc
    split at hc <;> cases hc

/-- What anything refers to. -/
theorem refers_ok (F : Facts objs p) {m : Nat} {o : Oid} (h : Refers objs (tb m p) o) : Ok objs p o := by
  cases h with
  | field ha hf =>
    refine field_ok F ?_ hf
    rcases ha with ha | ha
    · exact (rules_mem m _).1 ha
    · rw [nat_nil] at ha; cases ha
  | member _ e hl =>
    obtain ⟨q, h1, h2, -⟩ := member_part F.objects e _ hl
    cases h1
    exact Or.inl h2
  | listed _ e hl =>
    obtain ⟨q, h1, h2, -⟩ := member_part F.objects e _ hl
    cases h1
    exact Or.inl h2

theorem alias_obj (B : ObjectsOf objs p) {c : GroupClass} {n : String} {j : Nat} (h : LastAlias p c (some n) j) :
    nameOf objs (p.rules.length + j) = some (.group c, n) ∧ (∃ l, objs (p.rules.length + j) = .group c n l) ∧ j < p.groups.length := by
  obtain ⟨⟨g, h1, h2⟩, -⟩ := h
  have := B.alias j g h1
  have hl := lt_of_get h1
  cases g with
  | net a d l => cases h2; obtain ⟨es, e, -⟩ := this; exact ⟨by simp [nameOf, e], ⟨es, e⟩, hl⟩
  | port a d l => cases h2; obtain ⟨es, e, -⟩ := this; exact ⟨by simp [nameOf, e], ⟨es, e⟩, hl⟩

theorem part_name (B : ObjectsOf objs p) {o : Oid} (h : size p ≤ o) : nameOf objs o = none := by
  rcases B.parts o h with e | e | ⟨n, e⟩ | ⟨n, e⟩ <;> simp [nameOf, e]

theorem le_size (p : Pf.Parsed T) : p.rules.length ≤ size p := by unfold size; omega

/-- What the theorems about pages ask of tables and objects. -/
theorem wellFormed (F : Facts objs p) (m : Nat) : WellFormed objs (tb m p) where
  rules o ho := by
    have hr := (rules_mem m o).1 ho
    obtain ⟨pr, sh, sp, dh, dp, ic, e, -⟩ := F.objects.rule o _ (List.getElem?_eq_getElem hr)
    exact ⟨_, _, _, _, _, _, _, _, e⟩
  nat o ho := by rw [nat_nil] at ho; cases ho
  nodup s := by
    by_cases h1 : s = .interface
    · subst h1
      show (dKeys ((PfFilter.build m p).interfaces.map fun p => (p.1, p.2.oid))).Nodup
      unfold dKeys
      rw [List.map_map]
      show (dKeys (PfFilter.build m p).interfaces).Nodup
      rw [show PfFilter.build m p = Config.run (fun _ => "") (fun _ => []) (PfFilter.items m p) (PfFilter.items m p) from rfl,
        (Config.run_ifaces (fun _ => "") (fun _ => []) (PfFilter.items m p) (PfFilter.items m p)).1]
      exact Config.eraseDups_nodup _
    · by_cases h2 : s = .names
      · subst h2; exact List.nodup_nil
      · obtain ⟨k, rfl⟩ := sectOf_surj h1 h2
        rw [table_of_sect]
        exact table_nodup (fun _ => "") (fun _ => []) (PfFilter.items m p) (PfFilter.items m p) k
  table s n o hs hd := by
    rcases table_other m hd with rfl | rfl | rfl
    · exact absurd rfl hs
    · obtain ⟨j, h1, rfl⟩ := (table_alias F.named m (Or.inl rfl) n o).1 hd
      exact (alias_obj F.objects h1).1
    · obtain ⟨j, h1, rfl⟩ := (table_alias F.named m (Or.inr rfl) n o).1 hd
      exact (alias_obj F.objects h1).1
  ifaces n o hd := by
    obtain ⟨j, i, h1, -, rfl⟩ := table_iface m hd
    exact ⟨_, F.objects.iface j i h1⟩
  members o c n l e x hx := by
    obtain ⟨q, h1, -⟩ := member_part F.objects e x hx
    exact ⟨q, h1⟩
  noNames := rfl
  names o ho := by rw [names_nil] at ho; cases ho
  listed o s n hr hn := by
    rcases refers_ok F hr with h | ⟨c, a, j, hc, h1, rfl⟩
    · rw [part_name F.objects h] at hn; cases hn
    · rw [(alias_obj F.objects h1).1] at hn
      cases hn
      exact ⟨by simp, (table_alias F.named m hc n _).2 ⟨j, h1, rfl⟩⟩
  target o t hr e := by
    rcases refers_ok F hr with h | ⟨c, a, j, hc, h1, rfl⟩
    · rcases F.objects.parts o h with e' | e' | ⟨n, e'⟩ | ⟨n, e'⟩ <;> rw [e] at e' <;> cases e'
    · obtain ⟨-, ⟨l, e'⟩, -⟩ := alias_obj F.objects h1
      rw [e] at e'; cases e'
  fresh o hr := by
    refine ⟨fun ho => ?_, fun ho => by rw [nat_nil] at ho; cases ho⟩
    have hlt := (rules_mem m o).1 ho
    rcases refers_ok F hr with h | ⟨c, a, j, hc, h1, rfl⟩
    · exact absurd (Nat.lt_of_lt_of_le hlt (Nat.le_trans (le_size p) h)) (Nat.lt_irrefl _)
    · exact absurd (Nat.lt_of_lt_of_le hlt (Nat.le_add_right _ _)) (Nat.lt_irrefl _)
  addresses o n l e := by
    rcases obj_cases F.objects o with ⟨r, -, _, _, _, _, _, _, e', -⟩ | ⟨j, g, -, -, hg⟩ | ⟨j, i, -, -, e'⟩ | ⟨-, e' | e' | ⟨m, e'⟩ | ⟨m, e'⟩⟩ <;>
      first | (rw [e] at e'; cases e'; done) | skip
    cases g <;> obtain ⟨es, e', -⟩ := hg <;> (rw [e] at e'; cases e')

/-- What `resolve` asks for. -/
theorem holdsCfg (F : Facts objs p) (m : Nat) : ∃ U, HoldsCfg (T := T) (info objs) (.pfsense (m, p)) U := by
  obtain ⟨all, hall⟩ := F.objects.finite
  have hmem : ∀ o y, y ∈ contents objs o → y ∈ all.flatMap fun o => .obj o :: contents objs o := by
    intro o y hy
    have : o ∈ all := by
      refine hall o fun e => ?_
      simp [contents, e] at hy
    exact List.mem_flatMap.2 ⟨o, this, List.mem_cons_of_mem _ hy⟩
  have hrule : ∀ k x, RuleAt (T := T) (.pfsense (m, p)) k x → ∃ r n, info objs k = .rule r ∧ r.id = listOf x ∧ r.protoName = some n := by
    rintro k x ⟨r, h1, rfl⟩
    obtain ⟨pr, sh, sp, dh, dp, ic, e, ⟨q, rfl, -, hq⟩, -⟩ := F.objects.rule k r h1
    exact ⟨_, r.protocol.getD "None", by simp only [info, e]; rfl, rfl, by simp [protocolName, hq]⟩
  refine ⟨all.flatMap fun o => .obj o :: contents objs o, hrule, fun k x h => h.elim, ?_, fun k x y _ hy => hmem k y (field_contents hy), fun o y _ hy => hmem o y (pulls_contents hy)⟩
  intro k x hx
  have : k ∈ all := by
    refine hall k fun e => ?_
    rcases hx with hx | hx
    · obtain ⟨r, n, h1, -⟩ := hrule k x hx
      simp [info, e] at h1
    · exact hx.elim
  exact List.mem_flatMap.2 ⟨k, this, List.mem_cons_self ..⟩

/-- A link to an interface is one of a rule, and names an interface of the configuration. -/
theorem iface_link (F : Facts objs p) {o : Oid} {n : String} (h : (.interface, n) ∈ links objs o) : ∃ i ∈ p.interfaces, i.alias = n := by
  have noPort : ∀ e, (Sect.interface, n) ∉ portLinks objs e := by
    intro e he
    unfold portLinks at he
    split at he
    · split at he <;> simp at he
    · simp at he
  have noProto : ∀ e, (Sect.interface, n) ∉ protoLinks objs e := by
    intro e he
    unfold protoLinks at he
    split at he
    · split at he <;> simp at he
    · simp at he
  have noIcmp : ∀ e, (Sect.interface, n) ∉ icmpLinks objs e := by
    intro e he
    unfold icmpLinks at he
    split at he
    · split at he <;> simp at he
    · simp at he
  have noHost : ∀ e, (Part objs p e fun x => x = .address none ∨ x = .other) → (Sect.interface, n) ∉ hostLinks objs e := by
    rintro e ⟨q, rfl, -, hq | hq⟩ he <;> simp [hostLinks, hq] at he
  have host : ∀ x e, HostRef p x → HostAt objs p x e → (Sect.interface, n) ∈ hostLinks objs e → ∃ i ∈ p.interfaces, i.alias = n := by
    intro x e hr ha he
    cases hr with
    | any => obtain ⟨q, rfl, -, hq⟩ := ha; simp [hostLinks, hq] at he
    | host => obtain ⟨q, rfl, -, hq⟩ := ha; simp [hostLinks, hq] at he
    | net => obtain ⟨q, rfl, -, hq⟩ := ha; simp [hostLinks, hq] at he
    | iface i hi =>
      obtain ⟨q, rfl, -, hq⟩ := ha
      simp [hostLinks, hq] at he
      exact ⟨i, hi, he.symm⟩
    | group a l j d h1 h2 =>
      rw [ha j h1] at he
      obtain ⟨-, ⟨es, e'⟩, -⟩ := alias_obj F.objects h1
      simp [hostLinks, e'] at he
  rcases obj_cases F.objects o with ⟨r, hr, pr, sh, sp, dh, dp, ic, e, h1, h2, h3, h4, h5, h6⟩ | ⟨j, g, -, -, hg⟩ | ⟨j, i, -, -, e⟩ | ⟨-, e | e | ⟨m, e⟩ | ⟨m, e⟩⟩
  · obtain ⟨⟨r1, r2⟩, r3, r4⟩ := F.refs r (List.mem_iff_getElem?.2 ⟨o, hr⟩)
    simp only [links, e, List.mem_append, List.flatMap_nil, List.not_mem_nil, or_false] at h
    rcases h with (((h | h) | h) | h) | h
    · exact absurd h (noProto _)
    · exact host _ _ r1 h2 h
    · exact absurd h (noPort _)
    · exact host _ _ r3 h4 h
    · split at h
      · obtain ⟨x, -, hx⟩ := List.mem_flatMap.1 h
        exact absurd hx (noIcmp _)
      · exact absurd h (noPort _)
  · cases g with
    | net a d l =>
      obtain ⟨es, e, -, hm⟩ := hg
      simp only [links, e] at h
      obtain ⟨x, hx, hx'⟩ := List.mem_flatMap.1 h
      exact absurd hx' (noHost x (hm x hx))
    | port a d l =>
      obtain ⟨es, e, -, hm⟩ := hg
      simp only [links, e] at h
      obtain ⟨x, hx, hx'⟩ := List.mem_flatMap.1 h
      exact absurd hx' (noPort x)
  all_goals simp [links, e] at h

end Acltk.PfPage

namespace Acltk.Static
open Acltk Acltk.Lookup Acltk.Detect Acltk.DetectText Acltk.Caf Acltk.Resolve Acltk.ExpandFilter Acltk.Web
open Acltk.Accepted (RuleAt NatAt HoldsCfg InUse listOf)
open Acltk.ConfigFilter (select)
open Acltk.Page (WellFormed Completes Listed OnPage Anchored)
open Acltk.PfPage (ObjectsOf Named LastAlias Facts)
open Acltk.FileText (Holds)

variable {T : Type}

theorem pf_facts {g : Guard} {xml : String → Option Pf.Elem} {v : Pf.Env T} {t : String} {m : Nat} {p : Pf.Parsed T}
    (hc : detect g (PfFilter.parser xml v) t = .config (.pfsense (m, p))) {objs : Oid → Page.Obj} (B : ObjectsOf objs p) (hN : Named p) : Facts objs p := by
  have h := Accepted.detect_inv hc
  simp only [PfFilter.parser] at h
  split at h
  · cases h
  · split at h
    · cases h
    · rename_i q hq
      cases h
      exact ⟨B, hN, fun r hr => PfPage.rule_refs hq hN hr⟩

/-- **C111, what is listed.** The tables behind the page of an accepted pfSense configuration: the rules in the order of the configuration, under the name of an alias the last one of that
kind and name, under the name of an interface an interface of that name, and nothing else. -/
theorem C111_listed {g : Guard} {xml : String → Option Pf.Elem} {v : Pf.Env T} {t : String} {m : Nat} {p : Pf.Parsed T}
    (_hc : detect g (PfFilter.parser xml v) t = .config (.pfsense (m, p))) {objs : Oid → Page.Obj} (_B : ObjectsOf objs p) (hN : Named p) :
    (tables (.pfsense (m, p))).rules = List.range p.rules.length ∧ (tables (.pfsense (m, p))).nat = [] ∧
    (∀ c n o, (c = .network ∨ c = .port) → (Listed objs (tables (.pfsense (m, p))) (.group c) n o ↔ ∃ j, LastAlias p c (some n) j ∧ o = p.rules.length + j)) ∧
    (∀ n o, Listed objs (tables (.pfsense (m, p))) .interface n o → ∃ (j : Nat) (i : Ifc.Intf), p.interfaces[j]? = some i ∧ i.alias = n ∧ o = p.rules.length + p.groups.length + j) ∧
    (∀ i ∈ p.interfaces, ∃ o, Listed objs (tables (.pfsense (m, p))) .interface i.alias o) ∧
    ∀ s n o, Listed objs (tables (.pfsense (m, p))) s n o → s = .interface ∨ s = .group .network ∨ s = .group .port := by
  refine ⟨PfFilter.rules_build m p, PfPage.nat_nil m, ?_, ?_, ?_, ?_⟩
  · intro c n o h
    unfold Listed
    rw [if_neg (by simp)]
    exact PfPage.table_alias hN m h n o
  · intro n o h
    unfold Listed at h
    rw [if_neg (by simp)] at h
    exact PfPage.table_iface m h
  · intro i hi
    unfold Listed
    obtain ⟨o, ho⟩ := PfPage.table_iface_all m hi
    exact ⟨o, by rw [if_neg (by simp)]; exact ho⟩
  · intro s n o h
    unfold Listed at h
    split at h
    · have : o ∈ (PfPage.tb m p).names := h.1
      rw [PfPage.names_nil] at this
      cases this
    · exact PfPage.table_other m h

/-- **C111, without a filter.** For every pfSense configuration whose aliases have names the page shows all of it; nothing is written exactly if `--sort` meets a member without a key. -/
theorem C111_no_filter_partial (s : Site T) (args : Args) (hcaf : args.caf = none) (hexp : args.expand = false) (file : List UInt8) (t : List Char) (ht : Holds t file)
    (m : Nat) (p : Pf.Parsed T) (hc : detect s.guard (PfFilter.parser s.xml s.env) (String.ofList t) = .config (.pfsense (m, p)))
    (B : ObjectsOf (s.objs false (.pfsense (m, p))) p) (hN : Named p) (hK : (s.keys false (.pfsense (m, p))).Total) :
    (main s args file = .raises ∧ args.sort = true ∧ NoKey (s.keys false (.pfsense (m, p))) (s.objs false (.pfsense (m, p))) (tables (.pfsense (m, p)))) ∨
    ((args.sort = true → ¬ NoKey (s.keys false (.pfsense (m, p))) (s.objs false (.pfsense (m, p))) (tables (.pfsense (m, p)))) ∧ ∃ w, main s args file = .written w ∧
      Members (s.keys false (.pfsense (m, p))) (s.objs false (.pfsense (m, p))) (tables (.pfsense (m, p))) args.sort w.objs ∧
      Shows s (.pfsense (m, p)) w.objs none args.sns w) := by
  have := C104_no_filter_partial s args hcaf file t ht (.pfsense (m, p)) hc (by rw [hexp]; intro h; cases h)
    (by rw [hexp]; exact PfPage.wellFormed (pf_facts hc B hN) m) (by rw [hexp]; exact hK)
  rwa [hexp] at this

/-- **C111, with a filter.** For every pfSense configuration whose aliases have names and every filter the page shows what the filter selects, with everything that refers to; nothing
is written exactly if `--sort` meets a member without a key. -/
theorem C111_page_partial (s : Site T) (args : Args) (hexp : args.expand = false) (file : List UInt8) (t : List Char) (ht : Holds t file)
    (m : Nat) (p : Pf.Parsed T) (hc : detect s.guard (PfFilter.parser s.xml s.env) (String.ofList t) = .config (.pfsense (m, p)))
    (ff : List UInt8) (hcaf : args.caf = some ff) (ft : List Char) (hft : Holds ft ff) (e : Expr) (rest : List Char)
    (hf : CafText.parse s.guard s.nest ft = .ok e rest)
    (B : ObjectsOf (s.objs false (.pfsense (m, p))) p) (hN : Named p) (hK : (s.keys false (.pfsense (m, p))).Total)
    (ho0 : ∀ r x, x ∈ s.order0 r ↔ x ∈ r) (hord : ∀ n r x, x ∈ s.order n r ↔ x ∈ r) :
    ∃ N, ∀ fuel rounds, N ≤ fuel → N ≤ rounds → ∃ sel,
      select s.guard (PfFilter.parser s.xml s.env) (PfFilter.filter fuel) s.nest fuel ft (String.ofList t) = some (.ok sel) ∧
      let q := main { s with fuel := fuel, rounds := rounds } args file
      (q = .raises ∧ args.sort = true ∧ NoKey (s.keys false (.pfsense (m, p))) (s.objs false (.pfsense (m, p))) (tables (.pfsense (m, p)))) ∨
      ((args.sort = true → ¬ NoKey (s.keys false (.pfsense (m, p))) (s.objs false (.pfsense (m, p))) (tables (.pfsense (m, p)))) ∧
        ∃ w, q = .written w ∧ Members (s.keys false (.pfsense (m, p))) (s.objs false (.pfsense (m, p))) (tables (.pfsense (m, p))) args.sort w.objs ∧
          Shows s (.pfsense (m, p)) w.objs (some sel) args.sns w) := by
  have F := pf_facts hc B hN
  obtain ⟨U, hU⟩ := PfPage.holdsCfg F m
  obtain ⟨N, h⟩ := C104_page_partial s args file t ht (.pfsense (m, p)) hc ff hcaf ft hft e rest hf (by rw [hexp]; intro h; cases h)
    (by rw [hexp]; exact PfPage.wellFormed F m) (by rw [hexp]; exact hK) U (by rw [hexp]; exact hU) ho0 hord
  refine ⟨N, fun fuel rounds h1 h2 => ?_⟩
  obtain ⟨sel, i1, i2⟩ := h fuel rounds h1 h2
  refine ⟨sel, i1, ?_⟩
  rw [hexp] at i2
  rcases i2 with ⟨p1, ⟨k, x, n, -, -, -, hin⟩ | p2⟩ | ⟨-, p2, p3⟩
  · exact hin.elim
  · exact Or.inl ⟨p1, p2⟩
  · exact Or.inr ⟨p2, p3⟩

/-- **C111, links.** On the page of a pfSense configuration whose aliases have names, whatever rules are selected, every link but those to interfaces has its anchor. -/
theorem C111_links_partial {g : Guard} {xml : String → Option Pf.Elem} {v : Pf.Env T} {t : String} {m : Nat} {p : Pf.Parsed T}
    (hc : detect g (PfFilter.parser xml v) t = .config (.pfsense (m, p))) {objs : Oid → Page.Obj} (B : ObjectsOf objs p) (hN : Named p)
    (lower : String → String) (inactive : Oid → Bool) (chosen : List Oid) (sel : Page.Sel)
    (hsel : Completes objs (tables (.pfsense (m, p))) chosen sel) (sns : Bool) (o : Oid)
    (ho : OnPage lower objs (idOf objs) inactive (tables (.pfsense (m, p))) sel sns o) (l : Page.Link) (hl : l ∈ Page.links objs o) (hi : l.1 ≠ .interface) :
    Anchored lower objs (tables (.pfsense (m, p))) sel sns l :=
  Page.C102_links_partial lower objs (idOf objs) inactive _ (PfPage.wellFormed (pf_facts hc B hN) m) chosen sel hsel sns o ho l hl hi

/-- **C111, links without a filter.** Without a filter, or with everything shown, every link of the page, also to interfaces, has its anchor. -/
theorem C111_links_unfiltered {g : Guard} {xml : String → Option Pf.Elem} {v : Pf.Env T} {t : String} {m : Nat} {p : Pf.Parsed T}
    (hc : detect g (PfFilter.parser xml v) t = .config (.pfsense (m, p))) {objs : Oid → Page.Obj} (B : ObjectsOf objs p) (hN : Named p)
    (lower : String → String) (inactive : Oid → Bool) (chosen : List Oid) (sel : Page.Sel)
    (hsel : Completes objs (tables (.pfsense (m, p))) chosen sel) (sns : Bool) (hall : sel = none ∨ sns = true) (o : Oid)
    (ho : OnPage lower objs (idOf objs) inactive (tables (.pfsense (m, p))) sel sns o) (l : Page.Link) (hl : l ∈ Page.links objs o) :
    Anchored lower objs (tables (.pfsense (m, p))) sel sns l := by
  have F := pf_facts hc B hN
  by_cases hi : l.1 = .interface
  · obtain ⟨s, n⟩ := l
    simp only at hi
    subst hi
    obtain ⟨i, hi, rfl⟩ := PfPage.iface_link F hl
    obtain ⟨q, hq⟩ := PfPage.table_iface_all m hi
    exact (Page.C102_interfaces_unfiltered lower objs _ (PfPage.wellFormed F m) sel sns hall _).2 ⟨_, q, hq, Or.inl rfl⟩
  · exact C111_links_partial hc B hN lower inactive chosen sel hsel sns o ho l hl hi

end Acltk.Static
