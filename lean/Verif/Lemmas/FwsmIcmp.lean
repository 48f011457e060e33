import Verif.Lemmas.FwsmRefs
/-!
# A rule with an ICMP type has protocol icmp or icmp6
-/
namespace Acltk.FwsmText
open Acltk Acltk.Peg Acltk.AclText Acltk.Lookup

variable {e : Env} {s : St} {g : Guard}

/-- What is known of a rule. -/
def RuleIcmp (r : PRule) : Prop := r.icmp = none ∨ r.protocol = .name "icmp" ∨ r.protocol = .name "icmp6"

/-- What is known of an element. -/
def ItemIcmp (i : Item) : Prop := ∀ r, i = .rule r → RuleIcmp r

theorem val_oneOf : ∀ l : List String, Val (oneOf g l) (· ∈ l)
  | [] => by intro t a r h; cases h
  | x :: l => by
    refine Val.alt ?_ (Val.mono (val_oneOf l) fun a h => List.mem_cons_of_mem _ h)
    intro t a r h
    unfold tok token at h
    dsimp only at h
    split at h
    · rename_i n w e
      split at e
      · split at e <;> cases e
        cases h
        exact List.mem_cons_self ..
      · cases e
    · cases h

theorem icmp_ruleExtended : Val (ruleExtended e) RuleIcmp := by
  unfold ruleExtended
  refine Val.alt ?_ ?_
  · refine Val.skip fun i => Val.skip fun _ => Val.skip fun _ => Val.skip fun _ => Val.skip fun _ => ?_
    refine Val.bind (V := fun p => p = "icmp" ∨ p = "icmp6") ?_ fun p hp => ?_
    · exact Val.mono (val_oneOf _) (by simp)
    · refine Val.skip fun _ => Val.skip fun a => Val.skip fun _ => Val.skip fun b => Val.skip fun v => Val.skip fun o => Val.pure (Or.inr ?_)
      rcases hp with rfl | rfl
      · exact Or.inl rfl
      · exact Or.inr rfl
  · exact Val.skip fun i => Val.skip fun _ => Val.skip fun _ => Val.skip fun _ => Val.skip fun _ => Val.skip fun p =>
      Val.skip fun _ => Val.skip fun a => Val.skip fun _ => Val.skip fun b =>
      Val.skip fun o => Val.pure (Or.inl rfl)

theorem icmp_ruleStandard : Val (ruleStandard e) RuleIcmp := by
  unfold ruleStandard
  exact Val.skip fun i => Val.skip fun _ => Val.skip fun _ => Val.skip fun _ => Val.skip fun _ =>
      Val.skip fun a => Val.skip fun _ => Val.skip fun _ => Val.pure (Or.inl rfl)

theorem icmp_ruleWebtype : Val (ruleWebtype e) RuleIcmp := by
  unfold ruleWebtype
  refine Val.alt ?_ ?_
  · exact Val.skip fun i => Val.skip fun _ => Val.skip fun _ => Val.skip fun _ => Val.skip fun _ => Val.skip fun _ =>
      Val.skip fun _ => Val.skip fun _ => Val.skip fun o => Val.pure (Or.inl rfl)
  · exact Val.skip fun i => Val.skip fun _ => Val.skip fun _ => Val.skip fun _ => Val.skip fun _ => Val.skip fun _ =>
      Val.skip fun _ => Val.skip fun b => Val.skip fun o => Val.pure (Or.inl rfl)

theorem icmp_remarked {p : P (Option PRule)} (hp : Val p (fun o => ∀ r, o = some r → RuleIcmp r)) :
    Val (remarked e p) (fun o => ∀ r, o = some r → RuleIcmp r) := by
  unfold remarked
  refine Val.skip fun rs => Val.bind hp fun o ho => Val.pure ?_
  intro r hr
  cases o with
  | none => cases hr
  | some x => cases hr; exact ho x rfl

theorem icmp_accessList : Val (accessList e) (fun o => ∀ r, o = some r → RuleIcmp r) := by
  have some_ok : ∀ p : P PRule, Val p RuleIcmp → Val (do let r ← p; pure (some r)) (fun o => ∀ r, o = some r → RuleIcmp r) := by
    intro p hp
    exact Val.bind hp fun r hr => Val.pure (by intro x hx; cases hx; exact hr)
  have hx := some_ok _ (icmp_ruleExtended (e := e))
  have hs := some_ok _ (icmp_ruleStandard (e := e))
  have hw := some_ok _ (icmp_ruleWebtype (e := e))
  have ht : Val (do ruleEthertype e; pure none) (fun o : Option PRule => ∀ r, o = some r → RuleIcmp r) :=
    Val.skip fun _ => Val.pure (by intro r h; cases h)
  unfold accessList
  exact Val.alts_cons (icmp_remarked hx) <| Val.alts_cons hx <| Val.alts_cons (icmp_remarked hs) <| Val.alts_cons hs <|
    Val.alts_cons (icmp_remarked hw) <| Val.alts_cons hw <| Val.alts_cons (icmp_remarked ht) <| Val.alts_cons ht Val.alts_nil

/-- Commands that are not access lists. -/
macro "other_item" : tactic => `(tactic| repeat (first
  | exact Val.pure (by intro r h; cases h)
  | exact Val.alts_nil
  | refine Val.alts_cons ?_ ?_
  | refine Val.alt ?_ ?_
  | refine Val.skip fun _ => ?_))

theorem icmp_command : Val (command s) (fun x => ItemIcmp x.1) := by
  have keep_ok : ∀ {p : P Item}, Val p ItemIcmp → Val (keep s p) (fun x => ItemIcmp x.1) := fun hp => Val.bind hp fun _ hi => Val.pure hi
  unfold command
  dsimp only
  refine Val.alts_cons (keep_ok ?_) <| Val.alts_cons (keep_ok ?_) <| Val.alts_cons (keep_ok ?_) <|
    Val.alts_cons ?_ <| Val.alts_cons ?_ <| Val.alts_cons ?_ <|
    Val.alts_cons ?_ <| Val.alts_cons ?_ <| Val.alts_cons (keep_ok ?_) <|
    Val.alts_cons (keep_ok ?_) <| Val.alts_cons (keep_ok ?_) <| Val.alts_cons (keep_ok ?_) <|
    Val.alts_cons (keep_ok ?_) <| Val.alts_cons (keep_ok ?_) Val.alts_nil
  · other_item
  · other_item
  · other_item
  · unfold interface; other_item
  · unfold name; other_item
  · unfold FwsmText.timeRange; other_item
  · unfold object; unfold objectNetwork objectService; other_item
  · unfold objectGroup objectGroupType; dsimp only; other_item
  · refine Val.bind icmp_accessList fun r hr => Val.pure ?_
    cases r with
    | none => intro r h; cases h
    | some r => intro x hx; cases hx; exact hr r rfl
  · other_item
  · unfold accessGroup; other_item
  · exact nat_plain (P := ItemIcmp) (fun n r h => by cases h) (fun r h => by cases h)
  · unfold ignored
    refine Val.alts ?_
    intro p hp
    obtain ⟨kt, -, rfl⟩ := List.mem_map.1 hp
    other_item
  · other_item

theorem parseFile_icmp {t r : Text} {items : List Item} (h : parseFile g t = .ok items r) : ∀ i ∈ items, ItemIcmp i := by
  unfold parseFile at h
  split at h
  · rename_i l s' hc
    split at h
    · cases h
    · cases h
      obtain ⟨h1, -⟩ := commands_hist (S := fun _ _ => True) (I := fun _ _ i => ItemIcmp i) (fun b s _ => Val.mono icmp_command fun _ h => ⟨h, trivial⟩) _ [] _ _ _ _ _ rfl trivial hc
      intro i hi
      obtain ⟨k, hk⟩ := List.mem_iff_getElem?.1 hi
      obtain ⟨-, -, h⟩ := h1 k i hk
      exact h
  · cases h
  · cases h
  · cases h

end Acltk.FwsmText
