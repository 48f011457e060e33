import Verif.Spec.IosRowSpec
import Verif.Lemmas.RowWords
import Verif.Lemmas.IosHosts
/-!
# The words in the rules of whatever IOS text is accepted
-/
namespace Acltk.IosText
open Acltk Acltk.Lookup Acltk.Peg Acltk.AclText
open Acltk.FwsmText (St Val PortOk IcmpOk PortVOk val_oneOf val_nodePort val_icmpOptions nodup_dSet mem_dSet')

variable {g : Guard} {s : St} {e : Env}

/-- The keywords have no colon and occur once. -/
def TextOptionsOk (d : Dict String (Option String)) : Prop := (∀ p ∈ d, ':' ∉ p.1.toList) ∧ (d.map (·.1)).Nodup

structure RowOk (r : IRule) : Prop where
  src : PortOk r.src.port
  dst : PortOk r.dst.port
  icmp : IcmpOk r.icmp
  options : TextOptionsOk r.options

theorem textOptionsOk_set {d : Dict String (Option String)} {k : String} {v : Option String} (h : TextOptionsOk d) (hk : ':' ∉ k.toList) :
    TextOptionsOk (dSet d k v) := by
  refine ⟨fun p hp => ?_, nodup_dSet h.2⟩
  rcases mem_dSet' hp with rfl | hp
  · exact hk
  · exact h.1 p hp

theorem val_tok {k : String} : Val (tok g k) (· = k) := by
  intro t a r h
  obtain ⟨c, -, ⟨h, -⟩⟩ := reads_tok _ _ _ _ _ h
  exact h

theorem val_optionsOf {l : List (String × Arg)} (hl : ∀ ka ∈ l, ':' ∉ ka.1.toList) : Val (optionsOf g l) TextOptionsOk := by
  have ho : Val (optionOf g l) (fun o => ':' ∉ o.1.toList) := by
    unfold optionOf
    refine FwsmText.Val.alts ?_
    intro p hp
    obtain ⟨ka, hka, rfl⟩ := List.mem_map.1 hp
    exact Val.bind val_tok fun k hk => Val.skip fun v => Val.pure (by rw [hk]; exact hl _ hka)
  unfold optionsOf
  refine Val.bind (Val.many (p := (do ws; optionOf g l)) (Val.skip fun _ => ho)) fun os hos => Val.pure ?_
  have : ∀ (os : List (String × Option String)) (d : Dict String (Option String)), (∀ o ∈ os, ':' ∉ o.1.toList) → TextOptionsOk d →
      TextOptionsOk (os.foldl (fun d o => dSet d o.1 o.2) d) := by
    intro os
    induction os with
    | nil => exact fun d _ h => h
    | cons o os ih => exact fun d h hd => ih _ (fun x hx => h x (List.mem_cons_of_mem _ hx)) (textOptionsOk_set hd (h o List.mem_cons_self))
  exact this os [] hos ⟨by simp, by simp⟩

theorem ext_keys : ∀ ka ∈ extOptions, ':' ∉ ka.1.toList := by decide +kernel
theorem std_keys : ∀ ka ∈ stdOptions, ':' ∉ ka.1.toList := by decide +kernel
theorem ip6_keys : ∀ ka ∈ ip6Options, ':' ∉ ka.1.toList := by decide +kernel
theorem ip6Icmp_keys : ∀ ka ∈ ip6IcmpOptions, ':' ∉ ka.1.toList := by decide +kernel

theorem val_optPort : Val (optPort e) (fun p => ∀ q, p = some q → PortVOk q) := by
  unfold optPort
  exact FwsmText.Val.opt (Val.skip fun _ => FwsmText.val_aclPort)

theorem val_mkNodePort {h : Host} {p : Option PortVal} (hp : ∀ q, p = some q → PortVOk q) : Val (act (mkNode h p)) (fun n => PortOk n.port) := by
  refine Val.act fun n hn => ?_
  match p with
  | none => cases hn; trivial
  | some (.service _) => cases hn
  | some (.port _ _) => cases hn; exact hp _ rfl
  | some (.range _ _) => cases hn; exact hp _ rfl
  | some (.group _) => cases hn; trivial

theorem port_iosNode : Val (iosNode e) (fun n => PortOk n.port) := by
  unfold iosNode
  exact Val.skip fun _ => Val.bind val_optPort fun p hp => val_mkNodePort hp

theorem port_ios6Node : Val (ios6Node e) (fun n => PortOk n.port) := by
  unfold ios6Node
  exact Val.skip fun _ => Val.bind val_optPort fun p hp => val_mkNodePort hp

theorem row_numExtended : Val (numExtended e) RowOk := by
  unfold numExtended
  refine Val.alt ?_ ?_
  · refine Val.skip fun ⟨i, m⟩ => ?_
    exact Val.skip fun _ => Val.skip fun _ => Val.skip fun _ => Val.skip fun _ => Val.skip fun _ =>
      Val.bind val_icmpOptions fun c hc => Val.bind (val_optionsOf ext_keys) fun o ho => Val.skip fun _ => Val.pure ⟨trivial, trivial, hc, ho⟩
  · refine Val.skip fun ⟨i, m⟩ => ?_
    exact Val.skip fun _ => Val.skip fun _ => Val.bind val_nodePort fun a ha => Val.skip fun _ => Val.bind val_nodePort fun b hb =>
      Val.bind (val_optionsOf ext_keys) fun o ho => Val.skip fun _ => Val.pure ⟨ha, hb, trivial, ho⟩

theorem row_numStandard : Val (numStandard e) RowOk := by
  unfold numStandard
  refine Val.skip fun ⟨i, m⟩ => ?_
  exact Val.skip fun _ => Val.bind (val_optionsOf std_keys) fun o ho => Val.skip fun _ => Val.pure ⟨trivial, trivial, trivial, ho⟩

theorem row_accessList : Val (accessList e) RowOk := by
  unfold accessList
  exact Val.alt (val_remarked row_numExtended fun _ _ h => ⟨h.src, h.dst, h.icmp, h.options⟩)
    (val_remarked row_numStandard fun _ _ h => ⟨h.src, h.dst, h.icmp, h.options⟩)

theorem row_namedExtended : Val (namedExtended e) RowOk := by
  unfold namedExtended
  refine Val.alts_cons ?_ <| Val.alts_cons ?_ <| Val.alts_cons ?_ Val.alts_nil
  · exact Val.skip fun _ => Val.skip fun _ => Val.skip fun _ => Val.skip fun _ => Val.skip fun _ => Val.skip fun _ =>
      Val.bind val_icmpOptions fun c hc => Val.bind (val_optionsOf ext_keys) fun o ho => Val.skip fun _ => Val.pure ⟨trivial, trivial, hc, ho⟩
  · exact Val.skip fun _ => Val.skip fun _ => Val.skip fun _ => Val.bind port_iosNode fun a ha => Val.skip fun _ => Val.bind port_iosNode fun b hb =>
      Val.bind (val_optionsOf ext_keys) fun o ho => Val.skip fun _ => Val.pure ⟨ha, hb, trivial, ho⟩
  · exact Val.skip fun _ => Val.skip fun _ => Val.skip fun _ => Val.skip fun _ => Val.skip fun _ => Val.skip fun _ =>
      Val.bind (val_optionsOf ext_keys) fun o ho => Val.skip fun _ => Val.pure ⟨trivial, trivial, trivial, ho⟩

theorem row_namedStandard : Val (namedStandard e) RowOk := by
  unfold namedStandard
  exact Val.skip fun _ => Val.skip fun _ => Val.bind (val_optionsOf std_keys) fun o ho => Val.skip fun _ => Val.pure ⟨trivial, trivial, trivial, ho⟩

theorem row_namedEntry {p : P IRule} (hp : Val p RowOk) : Val (namedEntry g p) RowOk := by
  unfold namedEntry
  exact val_remarked (Val.skip fun _ => hp) fun _ _ h => ⟨h.src, h.dst, h.icmp, h.options⟩

theorem row_ipAccessList : Val (ipAccessList e) (fun l => ∀ r ∈ l, RowOk r) := by
  unfold ipAccessList
  refine Val.alt ?_ ?_
  · refine Val.skip fun _ => Val.skip fun _ => Val.skip fun n => Val.skip fun _ =>
      Val.bind (Val.many (row_namedEntry row_namedStandard)) fun l hl => Val.pure ?_
    intro r hr
    obtain ⟨x, hx, rfl⟩ := List.mem_map.1 hr
    exact ⟨(hl x hx).src, (hl x hx).dst, (hl x hx).icmp, (hl x hx).options⟩
  · refine Val.skip fun _ => Val.skip fun _ => Val.skip fun n => Val.skip fun _ =>
      Val.bind (Val.many (row_namedEntry row_namedExtended)) fun l hl => Val.pure ?_
    intro r hr
    obtain ⟨x, hx, rfl⟩ := List.mem_map.1 hr
    exact ⟨(hl x hx).src, (hl x hx).dst, (hl x hx).icmp, (hl x hx).options⟩

theorem row_ip6Seq : Val (ip6Seq e) RowOk := by
  have hr : Val (ip6Rule e) RowOk := by
    unfold ip6Rule
    refine Val.alt ?_ ?_
    · exact Val.skip fun _ => Val.skip fun _ => Val.skip fun _ => Val.skip fun _ => Val.bind port_ios6Node fun a ha => Val.skip fun _ =>
        Val.bind port_ios6Node fun b hb => Val.bind (val_optionsOf ip6_keys) fun o ho => Val.skip fun _ => Val.pure ⟨ha, hb, trivial, ho⟩
    · exact Val.skip fun _ => Val.skip fun _ => Val.skip fun _ => Val.skip fun _ => Val.bind port_ios6Node fun a ha => Val.skip fun _ =>
        Val.bind port_ios6Node fun b hb => Val.bind (val_optionsOf ip6Icmp_keys) fun o ho => Val.skip fun _ => Val.pure ⟨ha, hb, trivial, ho⟩
  unfold ip6Seq
  exact Val.skip fun _ => Val.skip fun _ => Val.skip fun _ => Val.skip fun _ => Val.skip fun _ => Val.bind hr fun r hr =>
    Val.pure ⟨hr.src, hr.dst, hr.icmp, textOptionsOk_set hr.options (by decide)⟩

theorem row_ip6AccessList : Val (ip6AccessList e) (fun l => ∀ r ∈ l, RowOk r) := by
  unfold ip6AccessList
  refine Val.skip fun _ => Val.skip fun _ => Val.skip fun n => Val.skip fun _ =>
    Val.bind (FwsmText.Val.many1 row_ip6Seq) fun l hl => Val.pure ?_
  intro r hr
  obtain ⟨x, hx, rfl⟩ := List.mem_map.1 hr
  exact ⟨(hl x hx).src, (hl x hx).dst, (hl x hx).icmp, (hl x hx).options⟩

/-! ## whole texts -/

def RowItem : Item → Prop
  | .rule r => RowOk r
  | .rules l => ∀ r ∈ l, RowOk r
  | _ => True

def RowOut (x : Item × St) : Prop := RowItem x.1 ∧ True

theorem row_objectGroup : Val (objectGroup s) RowOut := by
  unfold objectGroup
  exact Val.skip fun _ => Val.skip fun _ => Val.skip fun ⟨i, s'⟩ => Val.pure ⟨trivial, trivial⟩

theorem row_keep {p : P Item} (hp : Val p RowItem) : Val (keep s p) RowOut :=
  Val.bind hp fun _ hi => Val.pure ⟨hi, trivial⟩

theorem row_base {p : P FwsmText.Item} : Val (base p) RowItem := Val.skip fun _ => Val.pure trivial

theorem row_ip : Val (ip s) RowItem := by
  unfold ip
  refine Val.skip fun _ => Val.skip fun _ => Val.alts_cons ?_ <| Val.alts_cons ?_ <| Val.alts_cons ?_ <| Val.alts_cons ?_ Val.alts_nil
  · exact Val.skip fun _ => Val.skip fun _ => Val.bind row_ipAccessList fun l hl => Val.pure hl
  · exact Val.skip fun _ => Val.skip fun _ => Val.skip fun _ => Val.pure trivial
  · refine Val.skip fun _ => Val.skip fun _ => ?_
    unfold ipRoute routeTo
    refine Val.alt ?_ ?_
    · exact Val.skip fun _ => Val.skip fun _ => Val.pure trivial
    · exact Val.skip fun _ => Val.skip fun _ => Val.skip fun _ => Val.skip fun _ => Val.skip fun _ => Val.skip fun _ => Val.skip fun _ =>
        Val.pure trivial
  · exact Val.skip fun _ => Val.pure trivial

theorem row_ipv6 : Val (ipv6 e) RowItem := by
  unfold ipv6
  refine Val.skip fun _ => Val.skip fun _ => Val.alt ?_ ?_
  · exact Val.bind row_ip6AccessList fun l hl => Val.pure hl
  · exact Val.skip fun _ => Val.pure trivial

theorem row_command : Val (command s) RowOut := by
  unfold command
  refine Val.alts_cons (row_keep row_base) <| Val.alts_cons (row_keep row_base) <|
    Val.alts_cons (row_keep row_base) <| Val.alts_cons ?_ <| Val.alts_cons row_objectGroup <|
    Val.alts_cons (row_keep ?_) <| Val.alts_cons (row_keep row_ip) <| Val.alts_cons (row_keep row_ipv6) <|
    Val.alts_cons (row_keep ?_) Val.alts_nil
  · unfold interface
    exact Val.skip fun _ => Val.skip fun _ => Val.skip fun _ => Val.skip fun _ => Val.skip fun _ => Val.skip fun _ => Val.pure ⟨trivial, trivial⟩
  · exact Val.bind row_accessList fun r hr => Val.pure hr
  · exact Val.skip fun _ => Val.pure trivial

theorem parseFile_rows {t r : Text} {items : List Item} (h : parseFile g t = .ok items r) : ∀ i ∈ items, RowItem i := by
  have key : ∀ (l : List Item) (s' : St) (u : Text), commands { env := { guard := g } } t = .ok (l, s') u → ∀ i ∈ l, RowItem i := by
    intro l s' u hc
    exact (commands_inv (S := fun _ => True) (I := RowItem) (fun s _ => row_command) _ _ _ _ _ _ rfl trivial hc).1
  unfold parseFile at h
  split at h
  · rename_i l s' u hc
    split at h
    · cases h
    · split at h
      · cases h; exact key _ _ _ hc
      · split at h
        · cases h; exact key _ _ _ hc
        · cases h
  · cases h
  · cases h

end Acltk.IosText
