import Verif.Props.PfConfig
import Verif.Props.IosRoutes
import Verif.Props.HostMatch
import Verif.Lemmas.IosHosts
/-!
# C94: the hosts of every accepted pfSense configuration are well formed
-/
namespace Acltk.Pf
open Acltk

variable {T : Type}

/-- A host of the parse result: of a rule or an alias. -/
inductive HostIn (p : Parsed T) : Host → Prop
  | src (r : PfRule T) : r ∈ p.rules → HostIn p r.src.host
  | dst (r : PfRule T) : r ∈ p.rules → HostIn p r.dst.host
  | alias (nm : String) (n : Option String) (d : String) (l : List Host) : AliasGroup.net n d l ∈ p.groups → HostIn p (.group nm l)

/-- An entry of an alias. -/
def Plain (h : Host) : Prop := Configured false h ∧ Leaf h h

theorem hostOf_plain {s : List Char} {h : Host} (e : hostOf s = .ok h) : Plain h := by
  unfold hostOf at e
  split at e
  · cases e
  · rename_i a ha; cases e; exact ⟨.host _ (ipAddress_valid ha), .host⟩

theorem networkOf_plain {l : List (List Char)} {h : Host} (e : networkOf l = .ok h) : Plain h := by
  unfold networkOf at e
  split at e
  · split at e
    · cases e
    · rename_i n hn; cases e; exact ⟨.net _ (IosConfig.mkNetwork_valid hn), .net⟩
  · split at e <;> cases e
  · cases e

theorem hostEntry_plain {s : List Char} {h : Host} (e : hostEntry s = .ok h) : Plain h := by
  unfold hostEntry at e
  split at e
  · rename_i x hx; cases e; exact hostOf_plain hx
  · cases e; exact ⟨.any, .any⟩
  · cases e

theorem urlLine_plain {s : List Char} {h : Host} (e : urlLine s = some h) : Plain h := by
  unfold urlLine at e
  simp only at e
  split at e
  · split at e
    · split at e
      · cases e
      · split at e
        · cases e
        · rename_i n hn; cases e; exact ⟨.net _ (IosConfig.mkNetwork_valid hn), .net⟩
    · cases e
  · split at e
    · cases e
    · rename_i a ha; cases e; exact ⟨.host _ (ipAddress_valid ha), .host⟩

theorem mapPy_plain {f : List Char → Py Host} (hf : ∀ s h, f s = .ok h → Plain h) :
    ∀ {l : List (List Char)} {m : List Host}, mapPy f l = .ok m → ∀ h ∈ m, Plain h := by
  intro l
  induction l with
  | nil => intro m e; cases e; simp
  | cons x l ih =>
    intro m e h hm
    rw [mapPy, bind_ok] at e
    obtain ⟨y, e1, e⟩ := e
    rw [bind_ok] at e
    obtain ⟨ys, e2, e⟩ := e
    cases e
    rcases List.mem_cons.1 hm with rfl | hm
    · exact hf _ _ e1
    · exact ih e2 h hm

theorem parseAlias_plain {v : Env T} {e : Elem} {n : Option String} {d : String} {l : List Host}
    (h : parseAlias v e = .ok (.net n d l)) : ∀ x ∈ l, Plain x := by
  unfold parseAlias at h
  rw [bind_ok] at h
  obtain ⟨descr, h1, h⟩ := h
  rw [bind_ok] at h
  obtain ⟨ty, h2, h⟩ := h
  split at h
  · rw [bind_ok] at h
    obtain ⟨name, h3, h⟩ := h
    rw [bind_ok] at h
    obtain ⟨l, -, h⟩ := h
    rw [bind_ok] at h
    obtain ⟨m, h4, h⟩ := h
    cases h
    exact mapPy_plain (fun _ _ => hostEntry_plain) h4
  · split at h
    · rw [bind_ok] at h
      obtain ⟨name, h3, h⟩ := h
      rw [bind_ok] at h
      obtain ⟨l, -, h⟩ := h
      rw [bind_ok] at h
      obtain ⟨m, h4, h⟩ := h
      cases h
      exact mapPy_plain (fun _ _ => networkOf_plain) h4
    · split at h
      · rw [bind_ok] at h
        obtain ⟨name, h3, h⟩ := h
        repeat' split at h
        · cases h; simp
        · cases h; simp
        · cases h
          intro x hx
          rw [List.mem_filterMap] at hx
          obtain ⟨w, -, hw⟩ := hx
          exact urlLine_plain hw
        · cases h
          intro x hx
          simp at hx
          subst hx
          exact ⟨.any, .any⟩
      · split at h
        · rw [bind_ok] at h
          obtain ⟨name, h3, h⟩ := h
          rw [bind_ok] at h
          obtain ⟨l, -, h⟩ := h
          rw [bind_ok] at h
          obtain ⟨m, -, h⟩ := h
          cases h
        · cases h

/-- A host of a rule: plain, the name of an interface, or an alias with plain members. -/
def RuleHost (h : Host) : Prop := Plain h ∨ ∃ nm l, h = .group nm l ∧ ∀ x ∈ l, Plain x

theorem nodeLoop_host {t : Tables} (ht : ∀ k g, dGet t.nets k = some g → RuleHost g) {l : List Elem} : ∀ {a p a' p'},
    nodeLoop t a p l = .ok (a', p') → (∀ h, a = some h → RuleHost h) → ∀ h, a' = some h → RuleHost h := by
  induction l with
  | nil => intro a p a' p' e ha; cases e; exact ha
  | cons n l ih =>
    intro a p a' p' e ha
    unfold nodeLoop at e
    split at e
    · exact ih e (by rintro h ⟨⟩; exact .inl ⟨.any, .any⟩)
    · split at e
      · rw [bind_ok] at e
        obtain ⟨x, e1, e⟩ := e
        refine ih e ?_
        rintro h ⟨⟩
        unfold addressChild at e1
        split at e1
        · rename_i g hg; cases e1; exact ht _ _ hg
        · split at e1
          · cases e1
          · split at e1
            · exact .inl (networkOf_plain e1)
            · exact .inl (hostOf_plain e1)
      · split at e
        · rw [bind_ok] at e
          obtain ⟨x, -, e⟩ := e
          exact ih e ha
        · split at e
          · rw [bind_ok] at e
            obtain ⟨x, e1, e⟩ := e
            refine ih e ?_
            rintro h ⟨⟩
            unfold networkChild at e1
            split at e1
            · cases e1
            · split at e1
              · cases e1; exact .inl ⟨.iface _, .iface⟩
              · cases e1
          · cases e

theorem parseNode_host {t : Tables} (ht : ∀ k g, dGet t.nets k = some g → RuleHost g) {e : Elem} {n : PNode}
    (h : parseNode t e = .ok n) : RuleHost n.host := by
  unfold parseNode at h
  rw [bind_ok] at h
  obtain ⟨⟨a, p⟩, h1, h2⟩ := h
  have := nodeLoop_host ht h1 (by simp)
  cases a with
  | none => cases h2
  | some x => cases h2; exact this x rfl

theorem ite_inv {α : Type} {c : Prop} [Decidable c] {a b : Py α} {x : α} (h : (if c then a else b) = .ok x) : a = .ok x ∨ b = .ok x := by
  split at h
  · exact .inl h
  · exact .inr h

theorem ruleStep_host {v : Env T} {t : Tables} (ht : ∀ k g, dGet t.nets k = some g → RuleHost g) {s s' : Vals T} {c : Elem}
    (h : ruleStep v t s c = .ok s') (hs : RuleHost s.source.host ∧ RuleHost s.destination.host) :
    RuleHost s'.source.host ∧ RuleHost s'.destination.host := by
  unfold ruleStep at h
  have stop : ∀ {r : Vals T}, Except.ok r = (Except.ok s' : Py (Vals T)) → r.source = s.source → r.destination = s.destination →
      RuleHost s'.source.host ∧ RuleHost s'.destination.host := by
    intro r e e1 e2; cases e; rw [e1, e2]; exact hs
  iterate 11
    rcases ite_inv h with h | h
    · exact stop h rfl rfl
  rcases ite_inv h with h | h
  · rw [bind_ok] at h; obtain ⟨x, h1, h⟩ := h; cases h; exact ⟨parseNode_host ht h1, hs.2⟩
  rcases ite_inv h with h | h
  · rw [bind_ok] at h; obtain ⟨x, h1, h⟩ := h; cases h; exact ⟨hs.1, parseNode_host ht h1⟩
  rcases ite_inv h with h | h
  · rw [bind_ok] at h; obtain ⟨x, h1, h⟩ := h; exact stop h rfl rfl
  rcases ite_inv h with h | h
  · rw [bind_ok] at h; obtain ⟨x, h1, h⟩ := h; exact stop h rfl rfl
  rcases ite_inv h with h | h
  · exact stop h rfl rfl
  rcases ite_inv h with h | h
  · exact stop h rfl rfl
  · cases h

theorem ruleLoop_host {v : Env T} {t : Tables} (ht : ∀ k g, dGet t.nets k = some g → RuleHost g) {l : List Elem} : ∀ {s s' : Vals T},
    ruleLoop v t s l = .ok s' → (RuleHost s.source.host ∧ RuleHost s.destination.host) →
    RuleHost s'.source.host ∧ RuleHost s'.destination.host := by
  induction l with
  | nil => intro s s' h hs; cases h; exact hs
  | cons c l ih =>
    intro s s' h hs
    rw [ruleLoop, bind_ok] at h
    obtain ⟨x, h1, h⟩ := h
    exact ih h (ruleStep_host ht h1 hs)

theorem RuleHost.configured {h : Host} (e : RuleHost h) : Configured false h := by
  rcases e with e | ⟨nm, l, rfl, e⟩
  · exact e.1
  · exact .group _ _ fun x hx => (e x hx).1

theorem rules_hosts {v : Env T} {root : Elem} {p : Parsed T} (h : parse v root = .ok p) {x : Host} (hx : HostIn p x) : RuleHost x := by
  obtain ⟨-, h1, -, ⟨t, ht, h2⟩, -⟩ := C61_configuration v root p h
  have halias : ∀ n d l, AliasGroup.net n d l ∈ p.groups → ∀ x ∈ l, Plain x := by
    intro n d l hm
    obtain ⟨e, -, he⟩ := h1.mem_right _ hm
    exact parseAlias_plain he
  have hn : ∀ k g, dGet t.nets k = some g → RuleHost g := by
    intro k g hg
    rw [ht.nets] at hg
    obtain ⟨l, hl, rfl⟩ := Option.map_eq_some_iff.1 hg
    have hm := List.mem_of_getLast? hl
    rw [List.mem_filterMap] at hm
    obtain ⟨a, ha, e⟩ := hm
    refine .inr ⟨_, l, rfl, ?_⟩
    cases a with
    | port => cases e
    | net n d m =>
      simp only [AliasGroup.netOf] at e
      split at e
      · cases e; exact halias _ _ _ ha
      · cases e
  have hrule : ∀ r ∈ p.rules, RuleHost r.src.host ∧ RuleHost r.dst.host := by
    intro r hr
    obtain ⟨e, -, r0, he, e'⟩ := h2.mem_right _ hr
    unfold parseRule at he
    rw [bind_ok] at he
    obtain ⟨s, i1, i2⟩ := he
    have F := finishRule_ok i2
    have := ruleLoop_host hn i1 ⟨.inl ⟨.any, .any⟩, .inl ⟨.any, .any⟩⟩
    rw [e']
    simp only
    rw [F.src, F.dst]
    exact this
  cases hx with
  | src r hr => exact (hrule r hr).1
  | dst r hr => exact (hrule r hr).2
  | alias nm n d l hm => exact .inr ⟨_, _, rfl, halias n d l hm⟩

/-- **C94**, pfSense: whatever configuration is accepted, every host of its rules and aliases has well-formed addresses and networks
and contains no wildcard and no group inside a group. -/
theorem C94_pfsense_hosts (v : Env T) (root : Elem) (p : Parsed T) (h : parse v root = .ok p) (x : Host) (hx : HostIn p x) :
    Configured false x ∧ (Leaf x x ∨ ∃ nm l, x = .group nm l ∧ ∀ y ∈ l, Configured false y ∧ Leaf y y) := by
  have := rules_hosts h hx
  refine ⟨this.configured, ?_⟩
  rcases this with e | e
  · exact .inl e.2
  · exact .inr e

/-- **C94**, consequence: comparing any two hosts of accepted pfSense configurations never raises and gives whether they have an
address in common, or the left one has an `any`. -/
theorem C94_pfsense_hosts_match (v v' : Env T) (root root' : Elem) (p p' : Parsed T) (h : parse v root = .ok p)
    (h' : parse v' root' = .ok p') (x y : Host) (hx : HostIn p x) (hy : HostIn p' y) (fuel : Nat) (hf : x.depth + y.depth + 1 ≤ fuel) :
    ∃ b, meet fuel x y = .ok b ∧ (b = true ↔ HasAny x ∨ ∃ a, Covers x a ∧ Covers y a) := by
  have cx := (rules_hosts h hx).configured
  have cy := (rules_hosts h' hy).configured
  exact C01_host_matching_with_wildcard x y fuel cx.ordinary cy.ordinary (fun e => cx.noWild e.1) (fun e => cx.noWild e.1)
    (fun e => cy.noWild e.1) hf

/-- The hypotheses are met by the sample of C61, which has an alias of hosts. -/
theorem C94_pfsense_sample : ∃ p nm h l, parse sampleEnv sampleConfig = .ok p ∧ HostIn p (.group nm (h :: l)) := by
  have h : (match parse sampleEnv sampleConfig with
      | .ok p => p.groups.any (fun g => match g with | .net _ _ (_ :: _) => true | _ => false)
      | _ => false) = true := by decide +kernel
  cases hp : parse sampleEnv sampleConfig with
  | error e => rw [hp] at h; cases h
  | ok p =>
    rw [hp] at h
    simp only [List.any_eq_true] at h
    obtain ⟨g, hg, hm⟩ := h
    cases g with
    | port => cases hm
    | net n d l =>
      cases l with
      | nil => cases hm
      | cons h l => exact ⟨p, "", h, l, rfl, .alias _ n d _ hg⟩

end Acltk.Pf
