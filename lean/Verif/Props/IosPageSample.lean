import Verif.Props.IosSettled
import Verif.Props.DetectText
/-!
# C113: the hypotheses are met
-/
namespace Acltk.Static
open Acltk Acltk.Lookup Acltk.Detect Acltk.DetectText Acltk.Resolve
open Acltk.Page (Listed defName)
open Acltk.IosPage (ObjectsOf Settled Kept oid Once RuleObj bare)
open Acltk.IosText (Item rulesOf defs sampleItems sampleText sampleEnd SameItems Same)

variable {T : Type}

theorem same_bare {i j : Item} (h : Same i j) : bare j = bare i := by
  cases h <;> rfl

theorem same_defs {l m : List Item} (h : SameItems l m) : defs m = defs l := by
  rw [IosPage.defs_eq, IosPage.defs_eq]
  induction h with
  | nil => rfl
  | cons i j is js h1 _ ih => rw [List.map_cons, List.map_cons, ih, same_bare h1]

theorem same_count {l m : List IosText.IRule} (h : IosText.SameRules l m) : m.length = l.length := by
  induction h with
  | nil => rfl
  | cons _ _ _ _ _ _ ih => rw [List.length_cons, List.length_cons, ih]

theorem same_rules {l m : List Item} (h : SameItems l m) : (rulesOf m).length = (rulesOf l).length := by
  rw [IosPage.rulesOf_eq, IosPage.rulesOf_eq]
  induction h with
  | nil => rfl
  | cons i j is js h1 _ ih =>
    rw [List.flatMap_cons, List.flatMap_cons, List.length_append, List.length_append, ih]
    congr 1
    cases h1 with
    | rule => rfl
    | rules _ _ h => exact same_count h
    | other => rfl

theorem sample_defs {x : List Item} (hx : x = [] ∨ x = [.base .nothing]) {p : Nat} {i : FwsmText.Item} {c : Config.Kind} {n : String}
    (hi : (defs (sampleItems ++ x))[p]? = some i) (hd : defName c i = some n) : c = .netGroup ∧ n = "srv" ∧ p = 4 := by
  have hlen : p < 13 := by
    have := (List.getElem?_eq_some_iff.1 hi).1
    rw [IosPage.defs_eq, List.length_map, List.length_append] at this
    have h2 : sampleItems.length = 12 := rfl
    rcases hx with rfl | rfl <;> simp only [h2, List.length_nil, List.length_cons] at this <;> omega
  rw [IosPage.defs_eq] at hi
  rcases hx with rfl | rfl
  all_goals
    match p, hlen with
    | 0, _ | 1, _ | 2, _ | 3, _ | 4, _ | 5, _ | 6, _ | 7, _ | 8, _ | 9, _ | 10, _ | 11, _ | 12, _ =>
      simp only [sampleItems, bare, List.map_cons, List.map_nil, List.map_append, List.cons_append, List.nil_append, List.append_nil, List.getElem?_cons_succ,
        List.getElem?_cons_zero, List.getElem?_nil, Option.some.injEq, reduceCtorEq] at hi
      all_goals (subst hi; cases c <;> first | (simp [defName] at hd; done) | (simp [defName] at hd; exact ⟨rfl, hd.symm, rfl⟩))

/-- The hypotheses of C113 are met by the sample: the group `srv` that its first rule refers to is the one listed, object 8; the rules are 0 to 3. -/
theorem C113_sample (pf : String → Detect.Outcome (Nat × Pf.Parsed T) Unit) : ∃ items objs,
    detect tatsuGuard pf (String.ofList (sampleText ++ sampleEnd)) = .config (.ios items) ∧ ObjectsOf objs items ∧ Settled items ∧
    (tables (T := T) (.ios items)).rules = [0, 1, 2, 3] ∧
    (∀ o, Listed objs (tables (T := T) (.ios items)) (.group .network) "srv" o ↔ o = 8) ∧
    (∃ l, objs 8 = .group .network "srv" l) ∧
    ∃ o, Listed objs (tables (T := T) (.ios items)) .interface "Vlan1" o := by
  obtain ⟨-, items, x, hx, hs, hc⟩ := C86_samples pf
  obtain ⟨u, hp⟩ := Accepted.detect_inv hc
  have B := IosPage.C113_objects hp
  have hdefs := same_defs hs
  have hlen : (rulesOf items).length = 4 := by
    rw [same_rules hs]
    rcases hx with rfl | rfl <;> rfl
  have hat : ∀ {p : Nat} {i : FwsmText.Item} {c : Config.Kind} {n : String}, (defs items)[p]? = some i → defName c i = some n → c = .netGroup ∧ n = "srv" ∧ p = 4 := by
    intro p i c n hi hd
    rw [hdefs] at hi
    exact sample_defs hx hi hd
  have hO : Once items := by
    intro c n p q i j hi hj h1 h2
    rw [(hat hi h1).2.2, (hat hj h2).2.2]
  have hg : (defs items)[4]? = some (.netGroup "srv" [.host ⟨.v4, 0x0a000005⟩] none) := by
    rw [hdefs]
    rcases hx with rfl | rfl <;> rfl
  have hk : Kept items .netGroup "srv" 4 := ⟨⟨_, hg, rfl⟩, fun q j hj hd => by rw [(hat hj hd).2.2]; exact Nat.le_refl _⟩
  have ho : oid items 4 = 8 := by
    show (rulesOf items).length + 4 = 8
    rw [hlen]
  obtain ⟨h1, -, h2, -, h3, -⟩ := C113_listed hc B
  refine ⟨items, _, hc, B, IosPage.once_settled hO, by rw [h1, hlen]; rfl, fun o => ?_, ?_, ?_⟩
  · rw [show Page.Sect.group .network = Page.sectOf .netGroup from rfl, h2]
    constructor
    · rintro ⟨p, ⟨⟨i, hi, hd⟩, -⟩, rfl⟩
      rw [(hat hi hd).2.2, ho]
    · rintro rfl
      exact ⟨4, hk, ho.symm⟩
  · have := IosPage.def_base (c := .netGroup) (n := "srv") hg rfl
    obtain ⟨ms, e, -⟩ := B.item 4 _ this
    rw [ho] at e
    exact ⟨ms, e⟩
  · have : items[3]? = some (.base (.iface IosText.sampleIface)) := by
      have e : (defs items)[3]? = some (.iface IosText.sampleIface) := by
        rw [hdefs]
        rcases hx with rfl | rfl <;> rfl
      obtain ⟨i, hi, hb⟩ := IosPage.defs_get.1 e
      cases i with
      | base j => rw [hi]; exact congrArg (fun x => some (Item.base x)) hb
      | _ => cases hb
    exact h3 3 _ this

end Acltk.Static
