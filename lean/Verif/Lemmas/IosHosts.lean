import Verif.Lemmas.FwsmHosts
import Verif.Lemmas.IosLineRule
/-!
# The hosts and ids in whatever IOS text is accepted
-/
namespace Acltk.IosText
open Acltk Acltk.Lookup Acltk.Peg Acltk.AclText
open Acltk.FwsmText (St Val HostsOk NameChars val_ip4 val_ip6 val_nameWs val_nameSlash val_refer val_net val_aclHost val_node val_objName_chars
  val_groupBody val_dSet)

variable {g : Guard} {s : St} {e : Env}

theorem val_ip4_v4 : Val ip4 (fun a => a.ver = .v4 ∧ a.Valid) := by
  unfold ip4
  refine Val.bind (V := fun l => ':' ∉ l) ?_ fun l hl => Val.act fun a ha => ⟨?_, ipAddress_valid ha⟩
  · intro t a r h
    obtain ⟨c, -, rfl, hc⟩ := reads_pat (e := ip4Re) (P := fun c => c ≠ ':') (by
      simp only [ip4Re, octetRe, Re.optional, Re.chr, Re.rng, Re.Within]
      repeat' constructor
      all_goals (intro c h e; subst e; revert h; decide)) _ _ _ h
    exact fun hm => hc _ hm rfl
  · obtain ⟨-, ⟨hv, -⟩ | ⟨-, -, hp⟩⟩ := ipAddress_ok ha
    · exact hv
    · rw [parseV6_no_colon hl] at hp; cases hp

theorem mkHost_conf {a : Addr} {h : Host} (e : mkHost a = .ok h) : Configured true h := by
  unfold mkHost at e
  split at e
  · cases e
  · rename_i x hx; cases e; exact .host x (ipAddress_valid hx)

theorem wildcard_ok {a w : Addr} {h : Host} (ha : a.ver = .v4 ∧ a.Valid) (hw : w.ver = .v4 ∧ w.Valid)
    (e : iosWildcardHost a w = .ok h) : Configured true h := by
  have lt : ∀ x : Addr, x.ver = .v4 ∧ x.Valid → x.ip < 2 ^ 32 := by
    rintro ⟨v, ip⟩ ⟨h1, h2⟩
    cases h1
    exact h2
  unfold iosWildcardHost at e
  split at e
  · rename_i n hn; cases e; exact .net n (IosConfig.mkNetwork_valid hn)
  · unfold mkWildcard at e
    rw [ipAddress_text ha.2, ipAddress_text hw.2] at e
    cases e
    exact .wild _ _ rfl (lt a ha) (lt w hw)

theorem val_iosHost (he : HostsOk true e) : Val (iosHost e) (Configured true) := by
  unfold iosHost
  refine Val.alts_cons ?_ <| Val.alts_cons ?_ <| Val.alts_cons ?_ <| Val.alts_cons ?_ <| Val.alts_cons ?_ Val.alts_nil
  · exact Val.bind val_ip4_v4 fun a ha => Val.skip fun _ => Val.bind val_ip4_v4 fun w hw => Val.act fun h hh => wildcard_ok ha hw hh
  · exact Val.skip fun _ => Val.act fun h hh => mkHost_conf hh
  · exact Val.skip fun _ => Val.skip fun _ => Val.skip fun _ => Val.act fun h hh => mkHost_conf hh
  · exact Val.skip fun _ => Val.skip fun _ => val_refer he.netGroups
  · exact Val.skip fun _ => Val.pure .any

theorem val_mkNode {h : Host} {p : Option PortVal} (hh : Configured true h) : Val (act (mkNode h p)) (fun n => Configured true n.host) := by
  refine Val.act ?_
  intro a ha
  unfold mkNode at ha
  split at ha
  · cases ha
  · cases ha; exact hh

theorem val_iosNode (he : HostsOk true e) : Val (iosNode e) (fun n => Configured true n.host) := by
  unfold iosNode
  exact Val.bind (val_iosHost he) fun h hh => Val.skip fun _ => val_mkNode hh

theorem ip6Host_ok {a : Option Addr} {p : Option (List Char)} {h : Host} (e : iosIpv6Host a p = .ok h) : Configured true h := by
  unfold iosIpv6Host at e
  split at e
  · cases e; exact .any
  · split at e
    · split at e
      · rename_i n hn; cases e; exact .net n (IosConfig.mkNetwork_valid hn)
      · cases e
    · exact mkHost_conf e

theorem val_ios6Host : Val (ios6Host g) (Configured true) := by
  unfold ios6Host
  refine Val.alts_cons ?_ <| Val.alts_cons ?_ <| Val.alts_cons ?_ Val.alts_nil
  · exact Val.skip fun _ => Val.skip fun _ => Val.skip fun _ => Val.act fun _ h => ip6Host_ok h
  · exact Val.skip fun _ => Val.skip fun _ => Val.skip fun _ => Val.act fun _ h => ip6Host_ok h
  · exact Val.skip fun _ => Val.act fun _ h => ip6Host_ok h

theorem val_ios6Node : Val (ios6Node e) (fun n => Configured true n.host) := by
  unfold ios6Node
  exact Val.bind val_ios6Host fun h hh => Val.skip fun _ => val_mkNode hh

/-- The hosts of a rule. -/
def SidesOk (r : IRule) : Prop := Configured true r.src.host ∧ Configured true r.dst.host

/-- What is known of a rule. -/
def RuleOk (r : IRule) : Prop := NameChars r.id ∧ SidesOk r

theorem val_reads {α : Type} {p : P α} {Q : Text → α → Prop} {V : α → Prop} (h : Peg.Reads p Q) (hv : ∀ c a, Q c a → V a) : Val p V := by
  intro t a r e
  obtain ⟨c, -, hq⟩ := h _ _ _ e
  exact hv c a hq

theorem digits_name {l : List Char} (h : ∀ x ∈ l, x.isDigit = true) : NameChars (String.ofList l) := by
  intro c hc
  rw [String.toList_ofList] at hc
  have := h c hc
  simp [isNameChar, Char.isAlphanum, this]

theorem val_numHead {i : P (List Char)} (hi : Val i (fun l => ∀ x ∈ l, x.isDigit = true)) : Val (numHead g i) (fun x => NameChars x.1) := by
  unfold numHead
  exact Val.skip fun _ => Val.skip fun _ => Val.bind hi fun n hn => Val.skip fun _ => Val.skip fun _ => Val.skip fun _ =>
    Val.pure (digits_name hn)

theorem val_standardId : Val standardId (fun l => ∀ x ∈ l, x.isDigit = true) :=
  val_reads IosLines.reads_standardId fun c a h => by rw [h.1]; exact h.2

theorem val_extendedId : Val extendedId (fun l => ∀ x ∈ l, x.isDigit = true) :=
  val_reads IosLines.reads_extendedId fun c a h => by rw [h.1]; exact h.2

theorem val_numExtended (he : HostsOk true e) : Val (numExtended e) RuleOk := by
  unfold numExtended
  refine Val.alt ?_ ?_
  · refine Val.bind (val_numHead val_extendedId) fun ⟨i, m⟩ hi => ?_
    exact Val.skip fun _ => Val.skip fun _ => Val.bind (val_aclHost he) fun a ha => Val.skip fun _ => Val.bind (val_aclHost he) fun b hb =>
      Val.skip fun _ => Val.skip fun _ => Val.skip fun _ => Val.pure ⟨hi, ha, hb⟩
  · refine Val.bind (val_numHead val_extendedId) fun ⟨i, m⟩ hi => ?_
    exact Val.skip fun _ => Val.skip fun _ => Val.bind (val_node he) fun a ha => Val.skip fun _ => Val.bind (val_node he) fun b hb =>
      Val.skip fun _ => Val.skip fun _ => Val.pure ⟨hi, ha, hb⟩

theorem val_numStandard (he : HostsOk true e) : Val (numStandard e) RuleOk := by
  unfold numStandard
  refine Val.bind (val_numHead val_standardId) fun ⟨i, m⟩ hi => ?_
  exact Val.bind (val_iosHost he) fun a ha => Val.skip fun _ => Val.skip fun _ => Val.pure ⟨hi, ha, .any⟩

theorem val_remarked {rem : P (List Char)} {p : P IRule} {V : IRule → Prop} (hp : Val p V) (hv : ∀ r rs, V r → V { r with remark := rs }) :
    Val (remarked rem p) V := by
  unfold remarked
  exact Val.alt (Val.skip fun _ => Val.bind hp fun r hr => Val.pure (hv r _ hr)) hp

theorem val_accessList (he : HostsOk true e) : Val (accessList e) RuleOk := by
  unfold accessList
  exact Val.alt (val_remarked (val_numExtended he) fun _ _ h => h) (val_remarked (val_numStandard he) fun _ _ h => h)

theorem val_namedExtended (he : HostsOk true e) : Val (namedExtended e) SidesOk := by
  unfold namedExtended
  refine Val.alts_cons ?_ <| Val.alts_cons ?_ <| Val.alts_cons ?_ Val.alts_nil
  · exact Val.skip fun _ => Val.skip fun _ => Val.skip fun _ => Val.bind (val_iosHost he) fun a ha => Val.skip fun _ =>
      Val.bind (val_iosHost he) fun b hb => Val.skip fun _ => Val.skip fun _ => Val.skip fun _ => Val.pure ⟨ha, hb⟩
  · exact Val.skip fun _ => Val.skip fun _ => Val.skip fun _ => Val.bind (val_iosNode he) fun a ha => Val.skip fun _ =>
      Val.bind (val_iosNode he) fun b hb => Val.skip fun _ => Val.skip fun _ => Val.pure ⟨ha, hb⟩
  · exact Val.skip fun _ => Val.skip fun _ => Val.skip fun _ => Val.bind (val_iosHost he) fun a ha => Val.skip fun _ =>
      Val.bind (val_iosHost he) fun b hb => Val.skip fun _ => Val.skip fun _ => Val.pure ⟨ha, hb⟩

theorem val_namedStandard (he : HostsOk true e) : Val (namedStandard e) SidesOk := by
  unfold namedStandard
  exact Val.skip fun _ => Val.bind (val_iosHost he) fun a ha => Val.skip fun _ => Val.skip fun _ => Val.pure ⟨ha, .any⟩

theorem val_namedEntry {p : P IRule} (hp : Val p SidesOk) : Val (namedEntry g p) SidesOk := by
  unfold namedEntry
  exact val_remarked (Val.skip fun _ => hp) fun _ _ h => h

theorem name_ofList {l : List Char} (h : ∀ c ∈ l, isNameChar c = true) : NameChars (String.ofList l) := by
  intro c hc
  rw [String.toList_ofList] at hc
  exact h c hc

theorem val_ipAccessList (he : HostsOk true e) : Val (ipAccessList e) (fun l => ∀ r ∈ l, RuleOk r) := by
  unfold ipAccessList
  refine Val.alt ?_ ?_
  · refine Val.skip fun _ => Val.skip fun _ => Val.bind val_objName_chars fun n hn => Val.skip fun _ =>
      Val.bind (Val.many (val_namedEntry (val_namedStandard he))) fun l hl => Val.pure ?_
    intro r hr
    obtain ⟨x, hx, rfl⟩ := List.mem_map.1 hr
    exact ⟨name_ofList hn, hl x hx⟩
  · refine Val.skip fun _ => Val.skip fun _ => Val.bind val_objName_chars fun n hn => Val.skip fun _ =>
      Val.bind (Val.many (val_namedEntry (val_namedExtended he))) fun l hl => Val.pure ?_
    intro r hr
    obtain ⟨x, hx, rfl⟩ := List.mem_map.1 hr
    exact ⟨name_ofList hn, hl x hx⟩

theorem val_ip6Seq : Val (ip6Seq e) SidesOk := by
  have hr : Val (ip6Rule e) SidesOk := by
    unfold ip6Rule
    refine Val.alt ?_ ?_
    · exact Val.skip fun _ => Val.skip fun _ => Val.skip fun _ => Val.skip fun _ => Val.bind val_ios6Node fun a ha => Val.skip fun _ =>
        Val.bind val_ios6Node fun b hb => Val.skip fun _ => Val.skip fun _ => Val.pure ⟨ha, hb⟩
    · exact Val.skip fun _ => Val.skip fun _ => Val.skip fun _ => Val.skip fun _ => Val.bind val_ios6Node fun a ha => Val.skip fun _ =>
        Val.bind val_ios6Node fun b hb => Val.skip fun _ => Val.skip fun _ => Val.pure ⟨ha, hb⟩
  unfold ip6Seq
  exact Val.skip fun _ => Val.skip fun _ => Val.skip fun _ => Val.skip fun _ => Val.skip fun _ => Val.bind hr fun r hr => Val.pure hr

theorem val_ip6AccessList : Val (ip6AccessList e) (fun l => ∀ r ∈ l, RuleOk r) := by
  unfold ip6AccessList
  refine Val.skip fun _ => Val.skip fun _ => Val.bind val_objName_chars fun n hn => Val.skip fun _ =>
    Val.bind (Val.many1 val_ip6Seq) fun l hl => Val.pure ?_
  intro r hr
  obtain ⟨x, hx, rfl⟩ := List.mem_map.1 hr
  exact ⟨name_ofList hn, hl x hx⟩

/-- No item of IOS is a NAT entry or a network object. -/
def BaseOk : FwsmText.Item → Prop
  | .rule _ | .netObj .. | .nat _ => False
  | .netGroup n l _ => Configured true (.group n l)
  | _ => True

/-- What is known of an element of the parse result. -/
def ItemOk : Item → Prop
  | .rule r => RuleOk r
  | .rules l => ∀ r ∈ l, RuleOk r
  | .base i => BaseOk i
  | .route _ => True

/-- What is known of a command. -/
def OutOk (x : Item × St) : Prop := ItemOk x.1 ∧ HostsOk true x.2.env

theorem val_networkMember (he : HostsOk true e) : Val (networkMember e) (Configured true) := by
  unfold networkMember
  refine Val.alts_cons ?_ <| Val.alts_cons ?_ <| Val.alts_cons ?_ <| Val.alts_cons ?_ <| Val.alts_cons ?_ <| Val.alts_cons ?_ Val.alts_nil
  · refine Val.skip fun _ => Val.skip fun _ => Val.bind (V := Addr.Valid) ?_ fun a ha => Val.skip fun _ =>
      Val.skip fun _ => Val.pure (.host a ha)
    exact Val.alts_cons (val_nameWs he) <| Val.alts_cons val_ip4 <| Val.alts_cons val_ip6 Val.alts_nil
  · exact Val.skip fun _ => Val.skip fun _ => Val.skip fun _ => Val.skip fun _ => Val.skip fun _ => Val.skip fun _ => Val.skip fun _ =>
      Val.act fun _ h => by cases h
  · exact Val.skip fun _ => Val.skip fun _ => Val.skip fun _ => Val.skip fun _ => Val.skip fun _ => val_net fun _ => rfl
  · exact Val.skip fun _ => Val.skip fun _ => Val.skip fun _ => Val.skip fun _ => Val.skip fun _ => val_net fun _ => rfl
  · exact Val.skip fun _ => Val.skip fun _ => Val.bind (val_refer he.netGroups) fun h hh => Val.skip fun _ => Val.pure hh
  · exact Val.act fun _ h => by cases h

theorem val_objectGroup (hs : HostsOk true s.env) : Val (objectGroup s) OutOk := by
  have h : Val (objectGroupType s) (fun x => BaseOk x.1 ∧ HostsOk true x.2.env) := by
    unfold objectGroupType
    dsimp only
    refine Val.alts_cons ?_ <| Val.alts_cons ?_ <| Val.alts_cons ?_ <| Val.alts_cons ?_ <| Val.alts_cons ?_ Val.alts_nil
    · refine Val.skip fun _ => Val.bind (val_groupBody (val_networkMember hs)) fun ⟨n, d, l⟩ hl => Val.pure ?_
      have hg : Configured true (.group n l) := .group n l hl
      exact ⟨hg, { hs with netGroups := val_dSet hs.netGroups hg }⟩
    · exact Val.skip fun _ => Val.skip fun _ => Val.skip fun _ => Val.skip fun _ => Val.skip fun _ =>
        Val.skip fun _ => Val.skip fun _ => Val.skip fun _ => Val.skip fun _ => Val.skip fun _ => Val.pure ⟨trivial, ⟨hs.names, hs.netObjs, hs.netGroups⟩⟩
    · exact Val.skip fun _ => Val.skip fun ⟨n, d, l⟩ => Val.pure ⟨trivial, ⟨hs.names, hs.netObjs, hs.netGroups⟩⟩
    · exact Val.skip fun _ => Val.skip fun ⟨n, d, l⟩ => Val.pure ⟨trivial, ⟨hs.names, hs.netObjs, hs.netGroups⟩⟩
    · exact Val.skip fun _ => Val.skip fun ⟨n, d, l⟩ => Val.pure ⟨trivial, ⟨hs.names, hs.netObjs, hs.netGroups⟩⟩
  unfold objectGroup
  refine Val.skip fun _ => Val.skip fun _ => Val.bind h fun ⟨i, s'⟩ hi => Val.pure hi

theorem val_keep {p : P Item} (hp : Val p ItemOk) (hs : HostsOk true s.env) : Val (keep s p) OutOk :=
  Val.bind hp fun _ hi => Val.pure ⟨hi, hs⟩

theorem val_base {p : P FwsmText.Item} (hp : Val p BaseOk) : Val (base p) ItemOk := Val.bind hp fun _ hi => Val.pure hi

theorem val_ip (hs : HostsOk true s.env) : Val (ip s) ItemOk := by
  unfold ip
  refine Val.skip fun _ => Val.skip fun _ => Val.alts_cons ?_ <| Val.alts_cons ?_ <| Val.alts_cons ?_ <| Val.alts_cons ?_ Val.alts_nil
  · exact Val.skip fun _ => Val.skip fun _ => Val.bind (val_ipAccessList hs) fun l hl => Val.pure hl
  · exact Val.skip fun _ => Val.skip fun _ => Val.skip fun _ => Val.pure trivial
  · refine Val.skip fun _ => Val.skip fun _ => ?_
    unfold ipRoute routeTo
    refine Val.alt ?_ ?_
    · exact Val.skip fun _ => Val.skip fun _ => Val.pure trivial
    · exact Val.skip fun _ => Val.skip fun _ => Val.skip fun _ => Val.skip fun _ => Val.skip fun _ => Val.skip fun _ => Val.skip fun _ =>
        Val.pure trivial
  · exact Val.skip fun _ => Val.pure trivial

theorem val_ipv6 : Val (ipv6 e) ItemOk := by
  unfold ipv6
  refine Val.skip fun _ => Val.skip fun _ => Val.alt ?_ ?_
  · exact Val.bind val_ip6AccessList fun l hl => Val.pure hl
  · exact Val.skip fun _ => Val.pure trivial

theorem val_command (hs : HostsOk true s.env) : Val (command s) OutOk := by
  unfold command
  refine Val.alts_cons (val_keep (val_base ?_) hs) <| Val.alts_cons (val_keep (val_base ?_) hs) <|
    Val.alts_cons (val_keep (val_base ?_) hs) <| Val.alts_cons ?_ <| Val.alts_cons (val_objectGroup hs) <|
    Val.alts_cons (val_keep ?_ hs) <| Val.alts_cons (val_keep (val_ip hs) hs) <| Val.alts_cons (val_keep val_ipv6 hs) <|
    Val.alts_cons (val_keep ?_ hs) Val.alts_nil
  · exact Val.skip fun _ => Val.skip fun _ => Val.skip fun _ => Val.pure trivial
  · exact Val.skip fun _ => Val.skip fun _ => Val.skip fun _ => Val.skip fun _ => Val.pure trivial
  · exact Val.skip fun _ => Val.skip fun _ => Val.skip fun _ => Val.pure trivial
  · unfold interface
    exact Val.skip fun _ => Val.skip fun _ => Val.skip fun _ => Val.skip fun _ => Val.skip fun _ => Val.skip fun _ => Val.pure ⟨trivial, hs⟩
  · exact Val.bind (val_accessList hs) fun r hr => Val.pure hr
  · exact Val.skip fun _ => Val.pure trivial

/-- An invariant of the tables that every command keeps, and what it gives for the elements read. -/
theorem commands_inv {S : St → Prop} {I : Item → Prop} (h : ∀ s, S s → Val (command s) (fun x => I x.1 ∧ S x.2)) :
    ∀ (n : Nat) (s s' : St) (t r : Text) (l : List Item), t.length = n → S s → commands s t = .ok (l, s') r → (∀ i ∈ l, I i) ∧ S s' := by
  intro n
  induction n using Nat.strongRecOn with
  | _ n ih =>
    intro s s' t r l hn hS hc
    rw [commands] at hc
    split at hc
    · rename_i i s1 r1 h1
      obtain ⟨hi, hs1⟩ := h s hS _ _ _ h1
      split at hc
      · rename_i hl
        split at hc
        · rename_i l2 s2 u h2
          cases hc
          obtain ⟨h3, h4⟩ := ih r1.length (by omega) s1 _ r1 _ _ rfl hs1 h2
          refine ⟨?_, h4⟩
          intro x hx
          rcases List.mem_cons.1 hx with rfl | hx
          · exact hi
          · exact h3 x hx
        · cases hc
        · cases hc
      · cases hc; exact ⟨by simp, hS⟩
    · cases hc; exact ⟨by simp, hS⟩
    · cases hc

theorem parseFile_items {t r : Text} {items : List Item} (h : parseFile g t = .ok items r) : ∀ i ∈ items, ItemOk i := by
  have key : ∀ (l : List Item) (s' : St) (u : Text), commands { env := { guard := g } } t = .ok (l, s') u → ∀ i ∈ l, ItemOk i := by
    intro l s' u hc
    exact (commands_inv (S := fun s => HostsOk true s.env) (I := ItemOk) (fun s hs => val_command hs) _ _ _ _ _ _ rfl
      ⟨by simp, by simp, by simp⟩ hc).1
  unfold parseFile at h
  split at h
  · rename_i l s' u hc
    split at h
    · cases h
    · split at h
      · cases h; exact key _ _ _ hc
      · split at h
        · cases h; exact key _ _ _ hc
        · cases h
  · cases h
  · cases h

theorem rulesOf_ok {items : List Item} (h : ∀ i ∈ items, ItemOk i) : ∀ r ∈ rulesOf items, RuleOk r := by
  induction items with
  | nil => simp [rulesOf]
  | cons i is ih =>
    have ih := ih fun j hj => h j (List.mem_cons_of_mem _ hj)
    have hi := h i List.mem_cons_self
    cases i with
    | base b => exact ih
    | route r => exact ih
    | rule r =>
      intro x hx
      rcases List.mem_cons.1 hx with rfl | hx
      · exact hi
      · exact ih x hx
    | rules l =>
      intro x hx
      rcases List.mem_append.1 hx with hx | hx
      · exact hi x hx
      · exact ih x hx

end Acltk.IosText
