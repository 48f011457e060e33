import Verif.Lemmas.DosBanner
/-!
# IOS configurations with DOS line ends
-/
namespace Acltk.Dos
open Acltk Acltk.Lookup Acltk.Peg Acltk.AclText
open Acltk.FwsmText (St)

variable {ks : List String}

theorem leaf_Acltk_IosText_vlan : Sim ks .strict Eq IosText.vlan IosText.vlan := by sim
theorem leaf_Acltk_IosText_vlanList : Sim ks .strict Eq IosText.vlanList IosText.vlanList := by sim

theorem noEol_rng' {a b : Char} (h : '0' ≤ a) : NoEol (.rng a b) := by
  refine noEol_rng ?_ ?_ <;>
  · simp only [Bool.and_eq_false_iff, decide_eq_false_iff_not]
    exact .inl (fun h' => absurd (Char.le_trans h h') (by decide))

theorem noEol_digits : ∀ {l : List (Char × Char)}, (∀ x ∈ l, '0' ≤ x.1) → NoEol (IosText.digitsRe l)
  | [], _ => trivial
  | x :: l, h => ⟨noEol_rng' (h x (by simp)), noEol_digits (fun y hy => h y (by simp [hy]))⟩

theorem leaf_Acltk_IosText_standardId : Sim ks .even Eq IosText.standardId IosText.standardId := by
  unfold IosText.standardId
  refine Sim.alt ?_ ?_
  · exact Sim.bindEE (Sim.patE ⟨noEol_rng' (by decide), noEol_rng' (by decide), trivial⟩) (fun _ => Sim.bindEE (Sim.aheadA Sim.ws) (fun _ => Sim.pureE))
  · exact Sim.bindEE (Sim.patE (noEol_digits (by decide))) (fun _ => Sim.bindEE (Sim.aheadA Sim.ws) (fun _ => Sim.pureE))

theorem leaf_Acltk_IosText_extendedId : Sim ks .even Eq IosText.extendedId IosText.extendedId := by
  unfold IosText.extendedId
  refine Sim.alt ?_ ?_
  · exact Sim.bindEE (Sim.patE (noEol_digits (by decide))) (fun _ => Sim.bindEE (Sim.aheadA Sim.ws) (fun _ => Sim.pureE))
  · exact Sim.bindEE (Sim.patE (noEol_digits (by decide))) (fun _ => Sim.bindEE (Sim.aheadA Sim.ws) (fun _ => Sim.pureE))

theorem leaf_Acltk_IosText_optArg (a : IosText.Arg) : Sim ks .any Eq (IosText.optArg a) (IosText.optArg a) := by
  cases a <;> unfold IosText.optArg <;> sim

section
variable {g : Guard} (hg : NextChar g)
include hg

theorem leaf_Acltk_IosText_switchport : Sim ks .strict Eq (IosText.switchport g) (IosText.switchport g) := by sim
theorem leaf_Acltk_IosText_twoWords {a b : String} (ha : Plain a.toList ∧ a.toList ≠ []) (hb : Plain b.toList ∧ b.toList ≠ []) :
    Sim ks .strict Eq (IosText.twoWords g a b) (IosText.twoWords g a b) := by sim
theorem leaf_Acltk_IosText_nameDir : Sim ks .strict Eq (IosText.nameDir g) (IosText.nameDir g) := by sim
theorem leaf_Acltk_IosText_ios6Host : Sim ks .strict Eq (IosText.ios6Host g) (IosText.ios6Host g) := by sim

theorem iosInterfaceDetail_sim : Sim ks .any SameLine (IosText.interfaceDetail g) (IosText.interfaceDetail g) := by
  sim
  all_goals first
    | (refine .same (fun n h => ?_); cases h; done)
    | exact .descr (crS_ofList (by assumption))

theorem leaf_Acltk_IosText_optionOf {l : List (String × IosText.Arg)} (h : ∀ ka ∈ l, Plain ka.1.toList ∧ ka.1.toList ≠ []) :
    Sim ks .strict Eq (IosText.optionOf g l) (IosText.optionOf g l) := by
  unfold IosText.optionOf
  induction l with
  | nil => exact Sim.altsNil
  | cons ka l ih =>
    refine Sim.altsCons ?_ (ih (fun x hx => h x (by simp [hx])))
    exact Sim.bindSE (Sim.tok hg (h ka (by simp))) (fun _ => Sim.bindAE (leaf_Acltk_IosText_optArg _) (fun _ => Sim.pureE.toAny))

theorem leaf_Acltk_IosText_optionsOf {l : List (String × IosText.Arg)} (h : ∀ ka ∈ l, Plain ka.1.toList ∧ ka.1.toList ≠ []) :
    Sim ks .even Eq (IosText.optionsOf g l) (IosText.optionsOf g l) := by sim

theorem leaf_Acltk_IosText_seqMode : Sim ks .strict Eq (IosText.seqMode g) (IosText.seqMode g) := by sim

theorem leaf_Acltk_IosText_numHead {i : P (List Char)} (hi : Sim ks .even Eq i i) : Sim ks .strict Eq (IosText.numHead g i) (IosText.numHead g i) := by
  unfold IosText.numHead
  refine Sim.bindSE (by sim) (fun _ => Sim.bindAE Sim.ws (fun _ => Sim.bindAE hi (fun _ => ?_)))
  sim

theorem numRemark_sim : Sim ks .strict Cr (IosText.numRemark g) (IosText.numRemark g) := by
  sim
  assumption

theorem namedRemark_sim : Sim ks .strict Cr (IosText.namedRemark g) (IosText.namedRemark g) := by
  sim
  assumption
end

macro_rules | `(tactic| sim_side) => `(tactic| exact leaf_Acltk_IosText_standardId)
macro_rules | `(tactic| sim_side) => `(tactic| exact leaf_Acltk_IosText_extendedId)

section
variable {e : Env} (he : EnvOk e)
include he

theorem leaf_Acltk_IosText_networkMember : Sim ks .any Eq (IosText.networkMember e) (IosText.networkMember e) := by sim
theorem leaf_Acltk_IosText_serviceMember : Sim ks .even Eq (IosText.serviceMember e) (IosText.serviceMember e) := by sim
theorem leaf_Acltk_IosText_iosHost : Sim ks .strict Eq (IosText.iosHost e) (IosText.iosHost e) := by sim
theorem leaf_Acltk_IosText_optPort : Sim ks .any Eq (IosText.optPort e) (IosText.optPort e) := by sim
theorem leaf_Acltk_IosText_iosNode : Sim ks .strict Eq (IosText.iosNode e) (IosText.iosNode e) := by sim
theorem leaf_Acltk_IosText_ios6Node : Sim ks .strict Eq (IosText.ios6Node e) (IosText.ios6Node e) := by sim

theorem leaf_Acltk_IosText_numExtended : Sim ks .strict Eq (IosText.numExtended e) (IosText.numExtended e) := by
  unfold IosText.numExtended
  refine Sim.alt ?_ ?_ <;>
  · refine Sim.bindSE (by sim) (fun x => ?_)
    obtain ⟨i, m⟩ := x
    sim

theorem leaf_Acltk_IosText_numStandard : Sim ks .strict Eq (IosText.numStandard e) (IosText.numStandard e) := by
  unfold IosText.numStandard
  refine Sim.bindSE (by sim) (fun x => ?_)
  obtain ⟨i, m⟩ := x
  sim

theorem leaf_Acltk_IosText_namedExtended : Sim ks .strict Eq (IosText.namedExtended e) (IosText.namedExtended e) := by sim
theorem leaf_Acltk_IosText_namedStandard : Sim ks .strict Eq (IosText.namedStandard e) (IosText.namedStandard e) := by sim
theorem leaf_Acltk_IosText_ip6Rule : Sim ks .strict Eq (IosText.ip6Rule e) (IosText.ip6Rule e) := by sim
theorem leaf_Acltk_IosText_ip6Seq : Sim ks .strict Eq (IosText.ip6Seq e) (IosText.ip6Seq e) := by sim
theorem leaf_Acltk_IosText_ip6AccessList : Sim ks .strict Eq (IosText.ip6AccessList e) (IosText.ip6AccessList e) := by sim
end

theorem SameIRule.refl (r : IosText.IRule) : SameIRule r r := ⟨rfl, All2.refl (fun _ => .inl rfl) _⟩

theorem All2.map {α β γ δ : Type} {R : α → β → Prop} {S : γ → δ → Prop} {f : α → γ} {f' : β → δ} (h : ∀ a b, R a b → S (f a) (f' b)) {l : List α} {m : List β}
    (hl : All2 R l m) : All2 S (l.map f) (m.map f') := by
  induction hl with
  | nil => exact .nil
  | cons a _ ih => exact .cons (h _ _ a) ih

theorem SameIRule.iff {r r' : IosText.IRule} : SameIRule r r' ↔ ∃ m, r' = { r with remark := m } ∧ All2 Cr r.remark m := by
  constructor
  · rintro ⟨h1, h2⟩
    exact ⟨r'.remark, by rw [← h1], h2⟩
  · rintro ⟨m, rfl, h⟩; exact ⟨rfl, h⟩

theorem iosRemarked_sim {rem : P (List Char)} {p : P IosText.IRule} (hr : Sim ks .strict Cr rem rem) (hp : Sim ks .strict Eq p p) :
    Sim ks .strict SameIRule (IosText.remarked rem p) (IosText.remarked rem p) := by
  unfold IosText.remarked
  refine Sim.alt (Sim.bindS (Sim.many1 (.inl rfl) hr) (fun l l' hl => Sim.bindAE hp (fun r => (Sim.pure ⟨rfl, hl⟩).toAny))) ?_
  exact hp.mono (fun r _ e => e ▸ SameIRule.refl r)

section
variable {e : Env} (he : EnvOk e)
include he

theorem iosAccessList_sim : Sim ks .strict SameIRule (IosText.accessList e) (IosText.accessList e) :=
  Sim.alt (iosRemarked_sim (numRemark_sim he.guard) (leaf_Acltk_IosText_numExtended he))
    (iosRemarked_sim (numRemark_sim he.guard) (leaf_Acltk_IosText_numStandard he))

theorem namedEntry_sim {p : P IosText.IRule} (hp : Sim ks .strict Eq p p) :
    Sim ks .strict SameIRule (IosText.namedEntry e.guard p) (IosText.namedEntry e.guard p) :=
  iosRemarked_sim (namedRemark_sim he.guard) (Sim.bindSE Sim.sp (fun _ => hp.toAny))

theorem ipAccessList_sim : Sim ks .strict (All2 SameIRule) (IosText.ipAccessList e) (IosText.ipAccessList e) := by
  have hg := he.guard
  unfold IosText.ipAccessList
  refine Sim.alt ?_ ?_
  · refine Sim.bindSE (by sim) (fun x => Sim.bindAE Sim.ws (fun _ => Sim.bindAE (M := .even) (by sim) (fun n => Sim.bindAE Sim.nl (fun _ => ?_))))
    refine Sim.bindA (Sim.manyS (namedEntry_sim he (leaf_Acltk_IosText_namedStandard he))) (fun l l' hl => (Sim.pure ?_).toAny)
    refine All2.map (fun a b h => ?_) hl
    obtain ⟨m, rfl, h2⟩ := SameIRule.iff.1 h
    exact ⟨rfl, h2⟩
  · refine Sim.bindSE (by sim) (fun x => Sim.bindAE Sim.ws (fun _ => Sim.bindAE (M := .even) (by sim) (fun n => Sim.bindAE Sim.nl (fun _ => ?_))))
    refine Sim.bindA (Sim.manyS (namedEntry_sim he (leaf_Acltk_IosText_namedExtended he))) (fun l l' hl => (Sim.pure ?_).toAny)
    refine All2.map (fun a b h => ?_) hl
    obtain ⟨m, rfl, h2⟩ := SameIRule.iff.1 h
    exact ⟨rfl, h2⟩
end

/-! ## ignored commands -/

theorem leaf_Acltk_IosText_ignoredIndent : Sim ks .even Eq IosText.ignoredIndent IosText.ignoredIndent := by sim

theorem leaf_Acltk_IosText_tail (k : IosText.Tail) : Sim ks .any Eq (IosText.tail k) (IosText.tail k) := by
  cases k <;> unfold IosText.tail
  case pool =>
    refine Sim.bindA (M := .even) (R := All2 Eq) (Sim.manyS ?_) (fun _ _ _ => Sim.pureE.toAny)
    exact Sim.bindT (Sim.star (by decide) (by decide)) (fun _ _ _ => Sim.nl)
  all_goals sim

theorem leaf_Acltk_IosText_ignoredOf {g : Guard} (hg : NextChar g) {l : List (String × IosText.Tail)} (h : ∀ ka ∈ l, Plain ka.1.toList ∧ ka.1.toList ≠ []) :
    Sim ks .strict Eq (IosText.ignoredOf g l) (IosText.ignoredOf g l) := by
  unfold IosText.ignoredOf
  induction l with
  | nil => exact Sim.altsNil
  | cons ka l ih =>
    refine Sim.altsCons ?_ (ih (fun x hx => h x (by simp [hx])))
    exact Sim.bindSE (Sim.tok hg (h ka (by simp))) (fun _ => leaf_Acltk_IosText_tail _)

theorem iosIgnored_sim {g : Guard} (hg : NextChar g) (hk : "motd" ∈ ks) : Sim ks .strict Eq (IosText.ignored g) (IosText.ignored g) := by
  unfold IosText.ignored
  refine Sim.altsCons (by sim) (Sim.altsCons (banner_sim hg hk) (Sim.altsCons (by sim) (Sim.altsCons (by sim) (Sim.altsCons (by sim)
    (Sim.altsCons (by sim) (Sim.altsCons (by sim) (Sim.altsCons (by sim) Sim.altsNil)))))))

/-! ## commands -/

/-- Corresponding items and states. -/
def StepI (x x' : IosText.Item × St) : Prop := SameIos x.1 x'.1 ∧ StRel x.2 x'.2

section
variable {s : St} {d' : Dict String Ifc.Intf} (hs : StOk s d') (hk : "description" ∈ ks) (hm : "motd" ∈ ks)
include hs

theorem iosInterface_sim : Sim ks .strict StepI (IosText.interface s) (IosText.interface (setIf s d')) := by
  have hg := hs.env.guard
  unfold IosText.interface
  refine Sim.bindSE (Sim.tok hg (by decide +kernel)) (fun _ => Sim.bindAE Sim.ws (fun _ => Sim.bindAW Sim.stringP (fun a ha => Sim.bindAE Sim.nl (fun _ => ?_))))
  refine Sim.bindA (M := .even) (R := All2 SameLine) ?_ (fun l l' hl => ?_)
  · unfold FwsmText.indented
    exact Sim.many (Sim.toEven (Sim.bindSE Sim.sp (fun _ => iosInterfaceDetail_sim hg)))
  · refine Sim.bindA (Sim.actR (interfaceOf_rel (by simpa using ha) hl)) (fun i i' hi => (Sim.pure ?_).toAny)
    obtain ⟨h1, h2, h3⟩ := hi
    refine ⟨.base (.iface h1), ?_, ?_⟩
    · exact (match i'.nameif with
        | some n => dSet (dSet d' i'.alias i') n i'
        | none => dSet d' i'.alias i')
    · refine ⟨rfl, hs.env, ?_⟩
      show IfcsRel (match i.nameif with | some n => dSet (dSet s.ifaces i.alias i) n i | none => dSet s.ifaces i.alias i) _
      have e := h1.nameif
      rw [e.1, e.2]
      cases hn : i.nameif with
      | none => exact hs.ifaces.set h2 h1
      | some n => exact (hs.ifaces.set h2 h1).set (h3 n hn) h1

theorem routeGateway_sim : Sim ks .even SameGateway (IosText.routeGateway s) (IosText.routeGateway (setIf s d')) :=
  Sim.alt (Sim.toEven (Sim.bindSE Sim.ip4 (fun a => (Sim.pure (.addr a)).toAny)))
    (Sim.bindE (leaf_Acltk_FwsmText_interfaceRef hs) (fun _ _ hi => Sim.pure (.iface hi)))

theorem ipRoute_sim : Sim ks .strict SameIos (IosText.ipRoute s) (IosText.ipRoute (setIf s d')) := by
  have hg := hs.env.guard
  unfold IosText.ipRoute IosText.routeTo
  refine Sim.alt ?_ ?_
  · sim
    exact .base .nothing
  · refine Sim.bindSE Sim.ip4 (fun a => Sim.bindAE Sim.ws (fun _ => Sim.bindAE Sim.ip4 (fun m => Sim.bindAE Sim.ws (fun _ => ?_))))
    refine Sim.bindA (routeGateway_sim hs) (fun x x' hx => Sim.bindAE Sim.nl (fun _ => Sim.bindAE Sim.actEq (fun n => ?_)))
    exact (Sim.pure (.route n hx)).toAny

theorem ip_sim : Sim ks .strict SameIos (IosText.ip s) (IosText.ip (setIf s d')) := by
  have hg := hs.env.guard
  have he := hs.env
  unfold IosText.ip
  refine Sim.bindSE (by sim) (fun _ => Sim.bindAE Sim.ws (fun _ => Sim.toAny (M := .strict) ?_))
  refine Sim.altsCons ?_ (Sim.altsCons ?_ (Sim.altsCons ?_ (Sim.altsCons ?_ Sim.altsNil)))
  · unfold IosText.ipLists
    refine Sim.bindSE (by sim) (fun _ => Sim.bindAE Sim.ws (fun _ => Sim.bindA (ipAccessList_sim he) (fun l l' hl => ?_)))
    exact (Sim.pure (.rules hl)).toAny
  · sim
    exact .base (SameItem.refl _)
  · unfold IosText.ipRoutes
    exact Sim.bindSE (by sim) (fun _ => Sim.bindAE Sim.ws (fun _ => (ipRoute_sim hs).toAny))
  · sim
    exact .base .nothing

theorem ipv6_sim : Sim ks .strict SameIos (IosText.ipv6 s.env) (IosText.ipv6 s.env) := by
  have hg := hs.env.guard
  have he := hs.env
  sim
  · exact .rules (All2.refl SameIRule.refl _)
  · exact .base .nothing

theorem iosKeep_sim {p p' : P IosText.Item} (h : Sim ks .strict SameIos p p') : Sim ks .strict StepI (IosText.keep s p) (IosText.keep (setIf s d') p') :=
  Sim.bindS h (fun _ _ hv => (Sim.pure ⟨hv, d', rfl, hs⟩).toAny)

include hk

theorem iosObjectGroup_sim : Sim ks .strict StepI (IosText.objectGroup s) (IosText.objectGroup (setIf s d')) := by
  have hg := hs.env.guard
  have he := hs.env
  refine Sim.bindSE (Sim.tok hs.env.guard (by decide +kernel)) (fun _ => Sim.bindAE Sim.ws (fun _ => Sim.toAny (M := .strict) ?_))
  refine Sim.bindS (R := Step) ?_ (fun x x' h => ?_)
  · unfold IosText.objectGroupType
    refine Sim.altsCons ?_ (Sim.altsCons ?_ (Sim.altsCons ?_ (Sim.altsCons ?_ (Sim.altsCons ?_ Sim.altsNil))))
    · refine Sim.bindSE (by sim) (fun _ => Sim.bindA (groupBody_sim hg hk (leaf_Acltk_IosText_networkMember he)) (fun x x' h => ?_))
      obtain ⟨n, d, l⟩ := x
      obtain ⟨n', e, l'⟩ := x'
      obtain ⟨h1, h2, h3, h4⟩ := h
      cases h1; cases h3
      exact (Sim.pure ⟨.netGroup _ _ h2, d', rfl, ⟨he.guard, he.names, he.netObjs, he.netGroups.set h4 _, he.svcObjs, he.svcGroups, he.portGroups,
        he.icmpGroups, he.protoGroups, he.timeRanges⟩, hs.ifaces⟩).toAny
    · refine Sim.bindSE (by sim) (fun _ => Sim.bindAE Sim.ws (fun _ => Sim.bindAW Sim.objName (fun n hn => ?_)))
      refine Sim.bindAE Sim.ws (fun _ => Sim.bindAE (M := .strict) (by sim) (fun p => ?_))
      refine Sim.bindAE (M := .any) (by sim) (fun _ => Sim.bindAE Sim.nl (fun _ => ?_))
      refine Sim.bindA (optDescription_sim hg hk) (fun d e hd => ?_)
      refine Sim.bindAE (M := .even) (by sim) (fun l => Sim.bindAE (M := .even) Sim.actEq (fun l => ?_))
      exact (Sim.pure ⟨.portGroup _ _ _ _ hd, d', rfl, ⟨he.guard, he.names, he.netObjs, he.netGroups, he.svcObjs, he.svcGroups,
        he.portGroups.set (Word.toList hn) _, he.icmpGroups, he.protoGroups, he.timeRanges⟩, hs.ifaces⟩).toAny
    · refine Sim.bindSE (by sim) (fun _ => Sim.bindA (groupBody_sim hg hk (leaf_Acltk_IosText_serviceMember he)) (fun x x' h => ?_))
      obtain ⟨n, d, l⟩ := x
      obtain ⟨n', e, l'⟩ := x'
      obtain ⟨h1, h2, h3, h4⟩ := h
      cases h1; cases h3
      exact (Sim.pure ⟨.svcGroup _ _ _ h2, d', rfl, ⟨he.guard, he.names, he.netObjs, he.netGroups, he.svcObjs, he.svcGroups.set h4 _, he.portGroups,
        he.icmpGroups, he.protoGroups, he.timeRanges⟩, hs.ifaces⟩).toAny
    · refine Sim.bindSE (by sim) (fun _ => Sim.bindA (groupBody_sim hg hk (leaf_Acltk_FwsmText_icmpMember he)) (fun x x' h => ?_))
      obtain ⟨n, d, l⟩ := x
      obtain ⟨n', e, l'⟩ := x'
      obtain ⟨h1, h2, h3, h4⟩ := h
      cases h1; cases h3
      exact (Sim.pure ⟨.icmpGroup _ _ _ h2, d', rfl, ⟨he.guard, he.names, he.netObjs, he.netGroups, he.svcObjs, he.svcGroups, he.portGroups,
        he.icmpGroups.set h4 _, he.protoGroups, he.timeRanges⟩, hs.ifaces⟩).toAny
    · refine Sim.bindSE (by sim) (fun _ => Sim.bindA (groupBody_sim hg hk (leaf_Acltk_FwsmText_protocolMember he)) (fun x x' h => ?_))
      obtain ⟨n, d, l⟩ := x
      obtain ⟨n', e, l'⟩ := x'
      obtain ⟨h1, h2, h3, h4⟩ := h
      cases h1; cases h3
      exact (Sim.pure ⟨.protoGroup _ _ _ h2, d', rfl, ⟨he.guard, he.names, he.netObjs, he.netGroups, he.svcObjs, he.svcGroups, he.portGroups,
        he.icmpGroups, he.protoGroups.set h4 _, he.timeRanges⟩, hs.ifaces⟩).toAny
  · obtain ⟨i, s1⟩ := x
    obtain ⟨i', s1'⟩ := x'
    exact (Sim.pure ⟨.base h.1, h.2⟩).toAny

include hm

theorem iosCommand_sim : Sim ks .strict StepI (IosText.command s) (IosText.command (setIf s d')) := by
  have hg := hs.env.guard
  have he := hs.env
  unfold IosText.command
  refine Sim.altsCons (iosKeep_sim hs ?_) (Sim.altsCons (iosKeep_sim hs ?_) (Sim.altsCons (iosKeep_sim hs ?_) (Sim.altsCons (iosInterface_sim hs)
    (Sim.altsCons (iosObjectGroup_sim hs hk) (Sim.altsCons (iosKeep_sim hs ?_) (Sim.altsCons (iosKeep_sim hs (ip_sim hs))
    (Sim.altsCons (iosKeep_sim hs (ipv6_sim hs)) (Sim.altsCons (iosKeep_sim hs ?_) Sim.altsNil))))))))
  · refine Sim.bindS (R := SameItem) ?_ (fun _ _ h => (Sim.pure (.base h)).toAny)
    sim
    exact .version (by assumption)
  · sim
    exact .base (SameItem.refl _)
  · sim
    exact .base (SameItem.refl _)
  · exact Sim.bindS (iosAccessList_sim he) (fun _ _ h => (Sim.pure (.rule h)).toAny)
  · exact Sim.bindSE (iosIgnored_sim hg hm) (fun _ => (Sim.pure (.base .nothing)).toAny)
end

theorem iosCommands_sim (hk : "description" ∈ ks) (hm : "motd" ∈ ks) : ∀ (t t' : Text) (s : St) (d' : Dict String Ifc.Intf), StOk s d' → Rel ks t t' →
    SimR ks .even (fun x x' => All2 SameIos x.1 x'.1 ∧ StRel x.2 x'.2) t t' (IosText.commands s t) (IosText.commands (setIf s d') t') := by
  intro t
  induction hn : t.length using Nat.strongRecOn generalizing t with
  | _ n ih =>
    intro t' s d' hs hr
    have h1 := iosCommand_sim hs hk hm t t' hr
    rw [IosText.commands, IosText.commands]
    revert h1
    generalize IosText.command s t = x; generalize IosText.command (setIf s d') t' = y
    intro h1
    cases h1 with
    | fail => exact .ok ⟨.nil, d', rfl, hs⟩ hr (Nat.le_refl _) (Nat.le_refl _) (by simp [Moves])
    | raise e => exact .raise e
    | @ok v v' r r' hv hrel l l' mv =>
      obtain ⟨i, s1⟩ := v
      obtain ⟨i', s1'⟩ := v'
      obtain ⟨hi, d2, e, hs2⟩ := hv
      simp only at e
      subst e
      have hlt := mv.1
      have hlt' := mv.2
      simp only [hlt, hlt', if_true]
      have h2 := ih r.length (by omega) r rfl r' s1 d2 hs2 hrel
      revert h2
      generalize IosText.commands s1 r = x; generalize IosText.commands (setIf s1 d2) r' = y
      intro h2
      cases h2 with
      | fail => exact .fail
      | raise e => exact .raise e
      | @ok w w' u u' hw hu m1 m2 mv2 =>
        obtain ⟨l, s3⟩ := w
        obtain ⟨l', s3'⟩ := w'
        refine .ok ⟨.cons hi hw.1, hw.2⟩ hu (by omega) (by omega) ?_
        simp only [Moves] at *
        omega

theorem iosParseFile_sim {g : Guard} (hg : NextChar g) {t t' : Text} (he : LineEnds t t') (h : Good ["description", "motd"] t) :
    SameOutcome (All2 SameIos) (IosText.parseFile g t) (IosText.parseFile g t') := by
  have h0 : StOk { env := { guard := g } } [] :=
    ⟨⟨hg, by simp [NamesOk, keys], by simp [NamesOk, keys], by simp [NamesOk, keys], by simp [NamesOk, keys], by simp [NamesOk, keys],
      by simp [NamesOk, keys], by simp [NamesOk, keys], by simp [NamesOk, keys], by simp [NamesOk, keys]⟩, .nil⟩
  have h1 := iosCommands_sim (ks := ["description", "motd"]) (by simp) (by simp) t t' _ [] h0 ⟨h, he⟩
  unfold IosText.parseFile
  revert h1
  show SimR _ _ _ _ _ (IosText.commands { env := { guard := g } } t) (IosText.commands { env := { guard := g } } t') → _
  generalize IosText.commands { env := { guard := g } } t = x; generalize IosText.commands { env := { guard := g } } t' = y
  intro h1
  cases h1 with
  | fail => exact .refused
  | raise e => exact .raised e
  | @ok v v' r r' hv hr _ _ _ =>
    obtain ⟨l, s1⟩ := v
    obtain ⟨l', s1'⟩ := v'
    have hl : All2 SameIos l l' := hv.1
    have he : l'.isEmpty = l.isEmpty := by cases hl <;> rfl
    simp only [he]
    cases l.isEmpty with
    | true => exact .refused
    | false =>
      simp only [Bool.false_eq_true, if_false]
      have h2 : SimR ["description", "motd"] .strict Eq r r' (oneOf g ["line", "end"] r) (oneOf g ["line", "end"] r') :=
        Sim.oneOf hg (by decide +kernel) r r' hr
      have h3 : r'.isEmpty = r.isEmpty := by
        rcases hr.cases_on with ⟨rfl, rfl⟩ | ⟨x, x', rfl, hx', rfl | rfl⟩ | ⟨c, x, x', -, -, rfl, rfl, -⟩ <;> rfl
      rw [h3]
      revert h2
      generalize oneOf g ["line", "end"] r = x; generalize oneOf g ["line", "end"] r' = y
      intro h2
      cases h2 with
      | ok => exact .parsed hl
      | fail =>
        cases r.isEmpty with
        | true => exact .parsed hl
        | false => exact .refused
      | raise e =>
        cases r.isEmpty with
        | true => exact .parsed hl
        | false => exact .refused

end Acltk.Dos
