import Verif.Lemmas.DosTac
/-!
# Access lists with DOS line ends
-/
namespace Acltk.Dos
open Acltk Acltk.Lookup Acltk.Peg Acltk.AclText

variable {ks : List String}

section
variable {g : Guard} (hg : NextChar g)
include hg

theorem leaf_Acltk_AclText_port : Sim ks .strict Eq (port g) (port g) := by sim
theorem leaf_Acltk_AclText_icmpType : Sim ks .strict Eq (icmpType g) (icmpType g) := by sim
theorem leaf_Acltk_AclText_logOption : Sim ks .even Eq (logOption g) (logOption g) := by sim
theorem leaf_Acltk_AclText_head : Sim ks .strict Eq (head g) (head g) := by sim
theorem leaf_Acltk_AclText_mode : Sim ks .strict Eq (mode g) (mode g) := by sim
end

section
variable {e : Env} (he : EnvOk e)
include he

theorem leaf_Acltk_AclText_nameWs : Sim ks .even Eq (nameWs e) (nameWs e) := by sim
theorem leaf_Acltk_AclText_nameSlash : Sim ks .even Eq (nameSlash e) (nameSlash e) := by sim
theorem leaf_Acltk_AclText_aclHost : Sim ks .strict Eq (aclHost e) (aclHost e) := by sim
theorem leaf_Acltk_AclText_aclPort : Sim ks .strict Eq (AclText.aclPort e) (AclText.aclPort e) := by sim
theorem leaf_Acltk_AclText_node : Sim ks .strict Eq (node e) (node e) := by sim
theorem leaf_Acltk_AclText_aclProtocol : Sim ks .strict Eq (aclProtocol e) (aclProtocol e) := by sim
theorem leaf_Acltk_AclText_icmpOptions : Sim ks .any Eq (icmpOptions e) (icmpOptions e) := by sim
theorem leaf_Acltk_AclText_aclOption : Sim ks .even Eq (aclOption e) (aclOption e) := by sim
theorem leaf_Acltk_AclText_aclOptions : Sim ks .any Eq (aclOptions e) (aclOptions e) := by sim
theorem leaf_Acltk_AclText_lineEnd : Sim ks .strict Eq (lineEnd e) (lineEnd e) := by sim
theorem leaf_Acltk_AclText_ruleExtended : Sim ks .strict Eq (ruleExtended e) (ruleExtended e) := by sim
theorem leaf_Acltk_AclText_ruleStandard : Sim ks .strict Eq (ruleStandard e) (ruleStandard e) := by sim
theorem leaf_Acltk_AclText_ruleWebtype : Sim ks .strict Eq (ruleWebtype e) (ruleWebtype e) := by sim
theorem leaf_Acltk_AclText_ruleEthertype : Sim ks .strict Eq (ruleEthertype e) (ruleEthertype e) := by sim
theorem leaf_Acltk_AclText_remarkLine : Sim ks .strict Cr (remarkLine e) (remarkLine e) := by
  sim
  assumption
end

/-- Rules that are the same but for their remarks. -/
abbrev SameOptRule : Option PRule → Option PRule → Prop := Opt2 SameRule

theorem SameRule.refl (r : PRule) : SameRule r r := ⟨rfl, All2.refl (fun _ => .inl rfl) _⟩

theorem remarked_sim {e : Env} (he : EnvOk e) {p : P (Option PRule)} {M : Mode} (h : Sim ks M Eq p p) :
    Sim ks .strict SameOptRule (remarked e p) (remarked e p) := by
  unfold remarked
  refine Sim.bindS (Sim.many1 (.inl rfl) (leaf_Acltk_AclText_remarkLine he)) (fun l l' hl => ?_)
  refine Sim.bindA h (fun r r' hr => ?_)
  subst hr
  refine (Sim.pure ?_).toAny
  cases r with
  | none => exact .none
  | some r => exact .some ⟨rfl, hl⟩

theorem leaf_Acltk_AclText_accessList {e : Env} (he : EnvOk e) : Sim ks .strict SameOptRule (accessList e) (accessList e) := by
  have rfl' : ∀ r : Option PRule, SameOptRule r r := Opt2.refl SameRule.refl
  have hx : Sim ks .strict Eq (do let r ← ruleExtended e; pure (some r)) (do let r ← ruleExtended e; pure (some r)) := by sim
  have hs : Sim ks .strict Eq (do let r ← ruleStandard e; pure (some r)) (do let r ← ruleStandard e; pure (some r)) := by sim
  have hw : Sim ks .strict Eq (do let r ← ruleWebtype e; pure (some r)) (do let r ← ruleWebtype e; pure (some r)) := by sim
  have ht : Sim ks .strict Eq (do ruleEthertype e; pure (none : Option PRule)) (do ruleEthertype e; pure none) := by sim
  have self : ∀ {p : P (Option PRule)}, Sim ks .strict Eq p p → Sim ks .strict SameOptRule p p :=
    fun h => h.mono (fun a b e => e ▸ rfl' a)
  exact Sim.altsCons (remarked_sim he hx) (Sim.altsCons (self hx) (Sim.altsCons (remarked_sim he hs) (Sim.altsCons (self hs)
    (Sim.altsCons (remarked_sim he hw) (Sim.altsCons (self hw) (Sim.altsCons (remarked_sim he ht) (Sim.altsCons (self ht) Sim.altsNil)))))))

end Acltk.Dos
