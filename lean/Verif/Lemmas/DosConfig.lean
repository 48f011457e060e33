import Verif.Lemmas.DosIos
import Verif.Lemmas.DosCaf
import Verif.Model.ConfigFilter
/-!
# Configurations read from texts with other line ends are filtered alike
-/
namespace Acltk.Dos
open Acltk Acltk.Lookup
open Acltk.FwsmText (Item)

/-! ## the filter looks at rules and NAT entries only through matching -/

/-- Entries that match alike. -/
def MatchAlike (e e' : Entry) : Prop := ∀ fuel r, ruleAnd fuel r e = ruleAnd fuel r e'

theorem MatchAlike.refl (e : Entry) : MatchAlike e e := fun _ _ => rfl

theorem loopAny_congr {α : Type} {f f' : α → Py Bool} (h : ∀ a, f a = f' a) (l : List α) : loopAny f l = loopAny f' l := by
  rw [show f = f' from funext h]

theorem filterLoop_congr {heap heap' : Oid → Entry} (h : ∀ o, MatchAlike (heap o) (heap' o)) (fuel : Nat) (target : List Rule) :
    ∀ l r, filterLoop fuel heap target l r = filterLoop fuel heap' target l r
  | [], r => rfl
  | o :: l, r => by
    simp only [filterLoop]
    rw [loopAny_congr (fun t => h o fuel t) target, filterLoop_congr h fuel target l, filterLoop_congr h fuel target l]

theorem rulesFilter_congr {heap heap' : Oid → Entry} (h : ∀ o, MatchAlike (heap o) (heap' o)) (fuel : Nat) (l : List Oid) (target : List Rule) :
    rulesFilter fuel heap l target = rulesFilter fuel heap' l target := by
  cases fuel with
  | zero => rfl
  | succ n => exact filterLoop_congr h n target l []

theorem run_congr {heap heap' : Oid → Entry} (h : ∀ o, MatchAlike (heap o) (heap' o)) (l : List Oid) :
    ∀ fuel e, Caf.run fuel heap l e = Caf.run fuel heap' l e := by
  intro fuel
  induction fuel with
  | zero => intro e; rfl
  | succ n ih =>
    intro e
    cases e with
    | rule r => rfl
    | block b =>
      cases b with
      | rule r => exact rulesFilter_congr h n l [r]
      | block b => exact ih _
      | op o a b => exact ih _
    | op o a b => simp only [Caf.run, ih]

theorem configFilter_congr {heap heap' : Oid → Entry} (h : ∀ o, MatchAlike (heap o) (heap' o)) (l : List Oid) (n : List Oid × List Oid × List Oid)
    (fuel : Nat) (e : Caf.Expr) : Caf.configFilter fuel heap l n e = Caf.configFilter fuel heap' l n e := by
  cases fuel with
  | zero => rfl
  | succ k => simp only [Caf.configFilter, run_congr h]

/-! ## the configuration -/

/-- Elements of which the constructor takes the same, but for the version text and the gateways. -/
inductive Alike : Config.Item → Config.Item → Prop
  | same (i) : Alike i i
  | version (v v') : Alike (.version v) (.version v')
  | route (o g g') : Alike (.route o g) (.route o g')

/-- The same configuration but for the version text and what is left over. -/
structure Core (c c' : Config.Cfg) : Prop where
  rules : c.rules = c'.rules
  nat1 : c.nat1 = c'.nat1
  nat2 : c.nat2 = c'.nat2
  nat3 : c.nat3 = c'.nat3

theorem step_core (f f' : Oid → String) {c c' : Config.Cfg} (h : Core c c') {i i' : Config.Item} (hi : Alike i i') :
    Core (Config.step f c i) (Config.step f' c' i') := by
  obtain ⟨h1, h2, h3, h4⟩ := h
  cases hi with
  | same =>
    cases i with
    | accessGroup o n d =>
      simp only [Config.step]
      split <;> split <;> exact ⟨h1, h2, h3, h4⟩
    | nat o l =>
      simp only [Config.step]
      split
      · exact ⟨h1, h2, h3, by simp [h4]⟩
      · exact ⟨h1, by simp [h2], h3, h4⟩
    | netObj n o x => exact ⟨h1, h2, by simp [Config.step, h3], h4⟩
    | rule o => exact ⟨by simp [Config.step, h1], h2, h3, h4⟩
    | _ => exact ⟨h1, h2, h3, h4⟩
  | version => exact ⟨h1, h2, h3, h4⟩
  | route => exact ⟨h1, h2, h3, h4⟩

theorem build_core (f f' : Oid → String) (d d' : Oid → Dict String Oid) {l l' : List Config.Item} (h : All2 Alike l l') :
    Core (Config.build f d l) (Config.build f' d' l') := by
  have key : ∀ {l l' : List Config.Item}, All2 Alike l l' → ∀ c c', Core c c' → Core (l.foldl (Config.step f) c) (l'.foldl (Config.step f') c') := by
    intro l l' h
    induction h with
    | nil => intro c c' hc; exact hc
    | cons h _ ih => intro c c' hc; exact ih _ _ (step_core f f' hc h)
  exact key h _ _ ⟨rfl, rfl, rfl, rfl⟩

theorem All2.get {α β : Type} {R : α → β → Prop} {l : List α} {l' : List β} (h : All2 R l l') (n : Nat) : Opt2 R l[n]? l'[n]? := by
  induction h generalizing n with
  | nil => exact .none
  | cons h _ ih =>
    cases n with
    | zero => exact .some h
    | succ n => exact ih n

theorem link_alike {i i' : Item} (h : SameItem i i') (k : Oid) : Alike (CafFilter.link k i) (CafFilter.link k i') := by
  cases h with
  | version => exact .version _ _
  | @iface i i' h =>
    obtain ⟨h, -⟩ := h
    generalize i.description = d at h
    subst h
    exact .same _
  | @nat n n' h =>
    obtain ⟨h, -⟩ := h
    generalize n.description = d at h
    subst h
    exact .same _
  | @netObj => exact .same _
  | _ => exact .same _

theorem number_alike {l l' : List Item} (h : All2 SameItem l l') : ∀ k, All2 Alike (CafFilter.number k l) (CafFilter.number k l') := by
  induction h with
  | nil => intro k; exact .nil
  | cons h _ ih => intro k; exact .cons (link_alike h k) (ih (k + 1))

theorem entry_eq {r r' : AclText.PRule} (h : SameRule r r') : CafFilter.entry r' = CafFilter.entry r := by
  obtain ⟨h, -⟩ := h
  rw [← h]; rfl

theorem heap_eq {l l' : List Item} (h : All2 SameItem l l') : CafFilter.heap l' = CafFilter.heap l := by
  funext o
  have := h.get o
  unfold CafFilter.heap
  revert this
  generalize l[o]? = x; generalize l'[o]? = y
  intro h
  cases h with
  | none => rfl
  | some h =>
    cases h with
    | rule h => simp only [entry_eq h]
    | _ => rfl

theorem natHeap_alike {l l' : List Item} (h : All2 SameItem l l') (o : Oid) : MatchAlike (ConfigFilter.heap l o) (ConfigFilter.heap l' o) := by
  unfold ConfigFilter.heap
  rw [heap_eq h]
  have h1 := h.get o
  unfold CafFilter.natEntry
  revert h1
  generalize l[o]? = x; generalize l'[o]? = y
  intro h
  cases h with
  | none => exact .refl _
  | some h =>
    cases h with
    | @nat n n' h =>
      obtain ⟨h, -⟩ := h
      intro fuel r
      cases fuel with
      | zero => rfl
      | succ k =>
        rw [← h]
        simp only [ruleAnd]
        cases k <;> rfl
    | _ => exact .refl _

theorem fwsmRun_eq {l l' : List Item} (h : All2 SameItem l l') (fuel : Nat) (e : Caf.Expr) :
    Caf.run fuel (CafFilter.heap l') (Config.build (CafFilter.agName l') (fun _ => []) (CafFilter.number 0 l')).rules e =
      Caf.run fuel (CafFilter.heap l) (Config.build (CafFilter.agName l) (fun _ => []) (CafFilter.number 0 l)).rules e := by
  rw [heap_eq h, (build_core (CafFilter.agName l) (CafFilter.agName l') _ _ (number_alike h 0)).rules]

theorem ofFwsm_eq {l l' : List Item} (h : All2 SameItem l l') (fuel : Nat) (e : Caf.Expr) :
    ConfigFilter.ofFwsm fuel l' e = ConfigFilter.ofFwsm fuel l e := by
  have hc := build_core (CafFilter.agName l) (CafFilter.agName l') (fun _ => []) (fun _ => []) (number_alike h 0)
  unfold ConfigFilter.ofFwsm
  simp only
  rw [← hc.rules, ← hc.nat1, ← hc.nat2, ← hc.nat3]
  exact (configFilter_congr (natHeap_alike h) _ _ _ _).symm

/-! ## IOS -/

theorem irule_entry {r r' : IosText.IRule} (h : SameIRule r r') : IosConfig.entry r' = IosConfig.entry r := by
  obtain ⟨h, -⟩ := h
  rw [← h]; rfl

theorem All2.length {α β : Type} {R : α → β → Prop} {l : List α} {l' : List β} (h : All2 R l l') : l.length = l'.length := by
  induction h with
  | nil => rfl
  | cons _ _ ih => simp [ih]

theorem rulesOf_rel {l l' : List IosText.Item} (h : All2 SameIos l l') : All2 SameIRule (IosText.rulesOf l) (IosText.rulesOf l') := by
  induction h with
  | nil => exact .nil
  | cons h _ ih =>
    cases h with
    | base => exact ih
    | rule h => exact .cons h ih
    | rules h => exact All2.append h ih
    | route => exact ih

theorem iosHeap_eq {l l' : List IosText.Item} (h : All2 SameIos l l') : IosConfig.heap l' = IosConfig.heap l := by
  funext o
  have := (rulesOf_rel h).get o
  unfold IosConfig.heap
  revert this
  generalize (IosText.rulesOf l)[o]? = x; generalize (IosText.rulesOf l')[o]? = y
  intro h
  cases h with
  | none => rfl
  | some h => simp only [irule_entry h]

theorem iosNumber_alike {l l' : List IosText.Item} (h : All2 SameIos l l') :
    ∀ k r d d', All2 Alike (IosConfig.number k r d l) (IosConfig.number k r d' l') := by
  induction h with
  | nil => intros; exact .nil
  | @cons a b l m h _ ih =>
    intro k r d d'
    have hc : IosConfig.ruleCount a = IosConfig.ruleCount b := by
      cases h with
      | rules h => exact h.length
      | _ => rfl
    simp only [IosConfig.number]
    rw [hc]
    refine .cons ?_ (ih _ _ _ _)
    cases h with
    | base h => exact link_alike h k
    | rule => exact .same _
    | rules h => simp only [IosConfig.link]; rw [h.length]; exact .same _
    | route => exact .route _ _ _

theorem iosRules_eq {l l' : List Config.Item} (h : All2 Alike l l') :
    Config.iosRules (l'.filter Config.isRuleItem) = Config.iosRules (l.filter Config.isRuleItem) := by
  induction h with
  | nil => rfl
  | @cons a _ _ _ h _ ih =>
    cases h with
    | version => simpa [Config.isRuleItem] using ih
    | route => simpa [Config.isRuleItem] using ih
    | same =>
      cases a with
      | rule o => simp only [List.filter_cons, Config.isRuleItem, if_true, Config.iosRules, ih]
      | rules o x => simp only [List.filter_cons, Config.isRuleItem, if_true, Config.iosRules, ih]
      | _ => exact ih

theorem iosBuild_rules {l l' : List IosText.Item} (h : All2 SameIos l l') : (IosConfig.build l').base.rules = (IosConfig.build l).base.rules :=
  iosRules_eq (iosNumber_alike h 0 0 [] [])

theorem iosRun_eq {l l' : List IosText.Item} (h : All2 SameIos l l') (fuel : Nat) (e : Caf.Expr) :
    Caf.run fuel (IosConfig.heap l') (IosConfig.build l').base.rules e = Caf.run fuel (IosConfig.heap l) (IosConfig.build l).base.rules e := by
  rw [iosHeap_eq h, iosBuild_rules h]

theorem ofIos_eq {l l' : List IosText.Item} (h : All2 SameIos l l') (fuel : Nat) (e : Caf.Expr) :
    ConfigFilter.ofIos fuel l' e = ConfigFilter.ofIos fuel l e := by
  have hc := build_core (IosConfig.agName l) (IosConfig.agName l') (IosConfig.ifAg l) (IosConfig.ifAg l') (iosNumber_alike h 0 0 [] [])
  have h1 : (IosConfig.build l).base.nat1 = (IosConfig.build l').base.nat1 := hc.nat1
  have h2 : (IosConfig.build l).base.nat2 = (IosConfig.build l').base.nat2 := hc.nat2
  have h3 : (IosConfig.build l).base.nat3 = (IosConfig.build l').base.nat3 := hc.nat3
  unfold ConfigFilter.ofIos
  simp only
  rw [iosHeap_eq h, iosBuild_rules h, h1, h2, h3]

end Acltk.Dos
