import Verif.Props.Page
import Verif.Props.Resolve
/-!
# C100-C102: concrete pages
-/
namespace Acltk.Page
open Acltk Acltk.Resolve

/-- Two lists with three rules, a NAT entry, a name, two groups, an object and an interface. -/
def sampleHeap : Oid → Obj
  | 1 => .protocol "tcp"
  | 2 => .group .network "g" [.obj 3, .obj 6]
  | 3 => .address (some 5)
  | 4 => .group .port "web" [.obj 7]
  | 5 => .name "mail"
  | 6 => .netObject "srv" [.obj 7]
  | 8 => .netInterface "inside"
  | 10 => .rule (some "a") (.obj 1) (.obj 2) .none (.obj 7) (.obj 4) none []
  | 11 => .rule (some "a") (.obj 1) (.obj 7) .none (.obj 7) .none none []
  | 12 => .rule (some "b") (.obj 1) (.obj 7) .none (.obj 3) .none none []
  | 20 => .nat ⟨some (.obj 6), none, .obj 8, .none⟩ ⟨some (.obj 7), none, .obj 8, .none⟩
  | 30 => .interface (some "inside")
  | _ => .other

def sampleTables : Tables where
  names := [5]
  table
    | .interface => [("Vlan1", 30)]
    | .netObject => [("srv", 6)]
    | .group .network => [("g", 2)]
    | .group .port => [("web", 4)]
    | _ => []
  nat := [20]
  rules := [10, 11, 12]

def sampleId (o : Oid) : Option String := match sampleHeap o with | .rule id .. => id | _ => none

/-- What the first rule of list `b` refers to. -/
def sampleSel : List El := [.obj 12, .obj 1, .obj 7, .none, .obj 3, .str "b", .obj 5, .str "Names"]

theorem sample_heap (o : Oid) : sampleHeap o = .other ∨ o ∈ [1, 2, 3, 4, 5, 6, 8, 10, 11, 12, 20, 30] := by
  unfold sampleHeap
  split <;> simp

/-- Checking by evaluation that a list is the completion of a selection. -/
theorem completes_of {heap : Oid → Obj} {tb : Tables} {chosen : List Oid} {r : List El}
    (h1 : ∀ o ∈ chosen, o ∈ tb.rules ∨ o ∈ tb.nat) (h2 : ∀ x ∈ chosen.map El.obj, x ∈ r)
    (h3 : ∀ x ∈ chosen.map El.obj, ∃ l, fields (info heap) [] x = .ok l ∧ ∀ y ∈ l, y ∈ r)
    (h4 : ∀ x ∈ r, ∀ y ∈ (process (info heap) x).1, y ∈ r)
    (h5 : resolve (info heap) [] (r.length + 1) id (fun _ r => r) (chosen.map .obj) = .ok (some r)) :
    Completes heap tb chosen (some r) := by
  refine ⟨h1, ?_⟩
  rintro _ e
  cases e
  have g1 : ∀ o x, .obj o ∈ chosen.map El.obj → Field (info heap) o x → x ∈ r := by
    intro o x ho hf
    obtain ⟨l, hl, hs⟩ := h3 _ ho
    exact hs x ((fields_ok_mem hl x).2 ⟨o, rfl, hf⟩)
  have g2 : ∀ o x, .obj o ∈ r → Pulls (info heap) o x → x ∈ r := by
    intro o x ho hp
    exact h4 _ ho x ((process_pulls _ o x).2 hp)
  have g3 : ∀ x ∈ chosen.map El.obj, ¬ Unresolvable (info heap) [] x := by
    intro x hx hu
    obtain ⟨e, he⟩ := (fields_error_iff _ _ _).2 hu
    obtain ⟨l, hl, -⟩ := h3 x hx
    rw [hl] at he
    cases he
  obtain ⟨r', e, h⟩ := C43_resolve_is_closure (info heap) [] (chosen.map .obj) r ⟨h2, g1, g2⟩ id (fun _ r => r) (fun _ _ => Iff.rfl)
    (fun _ _ _ => Iff.rfl) g3 (r.length + 1) (by omega)
  rw [h5] at e
  cases e
  exact h

theorem sample_refers {o : Oid} (h : Refers sampleHeap sampleTables o) : o ∈ [1, 2, 3, 4, 6, 7, 8] := by
  have hm : ∀ a c n l, sampleHeap a = .group c n l → ∀ o, El.obj o ∈ l → o ∈ [1, 2, 3, 4, 6, 7, 8] := by
    intro a c n l e o ho
    rcases sample_heap a with h | h
    · rw [h] at e; cases e
    · simp only [List.mem_cons, List.not_mem_nil, or_false] at h
      rcases h with h|h|h|h|h|h|h|h|h|h|h|h <;> subst h <;> cases e
      · simp only [List.mem_cons, El.obj.injEq, List.not_mem_nil, or_false] at ho
        rcases ho with rfl | rfl <;> decide
      · simp only [List.mem_cons, El.obj.injEq, List.not_mem_nil, or_false] at ho
        subst ho; decide
  cases h with
  | @field a o hm hf =>
    have ha : a ∈ [10, 11, 12, 20] := by
      rcases hm with hm | hm
      · exact (by decide : ∀ a ∈ [10, 11, 12], a ∈ [10, 11, 12, 20]) a hm
      · exact (by decide : ∀ a ∈ [20], a ∈ [10, 11, 12, 20]) a hm
    obtain ⟨l, h1, h2⟩ : ∃ l, fields (info sampleHeap) [] (.obj a) = .ok l ∧ ∀ y ∈ l, y ∈ El.none :: .str "a" :: .str "b" :: [1, 2, 3, 4, 6, 7, 8].map El.obj := by
      simp only [List.mem_cons, List.not_mem_nil, or_false] at ha
      rcases ha with h|h|h|h <;> subst h <;> exact ⟨_, rfl, by decide⟩
    simpa using h2 _ ((fields_ok_mem h1 _).2 ⟨a, rfl, hf⟩)
  | member _ e hl => exact hm _ _ _ _ e _ hl
  | listed _ e hl => exact hm _ _ _ _ e _ hl

theorem sample_wf : WellFormed sampleHeap sampleTables where
  rules := by
    intro o ho
    simp only [sampleTables, List.mem_cons, List.not_mem_nil, or_false] at ho
    rcases ho with rfl | rfl | rfl <;> exact ⟨_, _, _, _, _, _, _, _, rfl⟩
  nat := by
    intro o ho
    simp only [sampleTables, List.mem_cons, List.not_mem_nil, or_false] at ho
    subst ho
    exact ⟨_, _, rfl⟩
  nodup := by
    intro s
    cases s with
    | group c => cases c <;> decide
    | _ => decide
  table := by
    intro s n o hs h
    have key : ∀ (m : String) (q : Oid), dGet [(m, q)] n = some o → n = m ∧ o = q := by
      intro m q h
      by_cases e : m = n
      · subst e; rw [show dGet [(m, q)] m = some q by simp [dGet]] at h; cases h; exact ⟨rfl, rfl⟩
      · rw [show dGet [(m, q)] n = none by simp [dGet, e]] at h; cases h
    cases s with
    | interface => exact absurd rfl hs
    | netObject => obtain ⟨rfl, rfl⟩ := key _ _ h; rfl
    | group c =>
      cases c with
      | network | port => obtain ⟨rfl, rfl⟩ := key _ _ h; rfl
      | _ => cases h
    | _ => cases h
  ifaces := by
    intro n o h
    by_cases e : "Vlan1" = n
    · subst e; cases h; exact ⟨_, rfl⟩
    · rw [show dGet (sampleTables.table .interface) n = none by simp [dGet, sampleTables, e]] at h; cases h
  members := by
    intro o c n l e x hx
    rcases sample_heap o with h | h
    · rw [h] at e; cases e
    · simp only [List.mem_cons, List.not_mem_nil, or_false] at h
      rcases h with h|h|h|h|h|h|h|h|h|h|h|h <;> subst h <;> cases e
      · simp only [List.mem_cons, List.not_mem_nil, or_false] at hx
        rcases hx with rfl | rfl <;> exact ⟨_, rfl⟩
      · simp only [List.mem_cons, List.not_mem_nil, or_false] at hx
        subst hx; exact ⟨_, rfl⟩
  noNames := rfl
  names := by
    intro o ho
    simp only [sampleTables, List.mem_cons, List.not_mem_nil, or_false] at ho
    subst ho
    exact ⟨_, rfl⟩
  listed := by
    intro o s n hr hn
    have := sample_refers hr
    simp only [List.mem_cons, List.not_mem_nil, or_false] at this
    rcases this with rfl | rfl | rfl | rfl | rfl | rfl | rfl <;> cases hn <;> exact ⟨by decide, by decide⟩
  target := by
    intro o t hr h
    have := sample_refers hr
    simp only [List.mem_cons, List.not_mem_nil, or_false] at this
    rcases this with rfl | rfl | rfl | rfl | rfl | rfl | rfl <;> cases h <;> decide
  fresh := by
    intro o hr
    have := sample_refers hr
    simp only [List.mem_cons, List.not_mem_nil, or_false] at this
    rcases this with rfl | rfl | rfl | rfl | rfl | rfl | rfl <;> decide
  addresses := by
    intro o n l e x hx
    rcases sample_heap o with h | h
    · rw [h] at e; cases e
    · simp only [List.mem_cons, List.not_mem_nil, or_false] at h
      rcases h with h|h|h|h|h|h|h|h|h|h|h|h <;> subst h <;> cases e
      simp only [List.mem_cons, List.not_mem_nil, or_false] at hx
      subst hx
      rfl

/-- The hypotheses of C101 and C102 are met, with a filter that selects the last rule. -/
theorem C101_sample : WellFormed sampleHeap sampleTables ∧ Completes sampleHeap sampleTables [12] (some sampleSel) ∧
    entries id sampleHeap sampleTables (some sampleSel) false .names = [⟨"mail", 5, false⟩] ∧
    entries id sampleHeap sampleTables (some sampleSel) false (.group .network) = [] ∧
    entries id sampleHeap sampleTables (some sampleSel) true (.group .network) = [⟨"g", 2, true⟩] := by
  refine ⟨sample_wf, completes_of (by decide) (by decide) ?_ (by decide +kernel) (by decide +kernel), by decide +kernel, by decide +kernel, by decide +kernel⟩
  intro x hx
  simp only [List.map_cons, List.map_nil, List.mem_cons, List.not_mem_nil, or_false] at hx
  subst hx
  exact ⟨_, rfl, by decide⟩

/-- The rows with that filter: the rule keeps its number. -/
theorem C100_sample :
    rows sampleId (fun _ => false) none false sampleTables.rules =
      [.head (some "a"), .rule 10 1 1 .even, .rule 11 1 2 .odd, .head (some "b"), .rule 12 2 1 .even] ∧
    rows sampleId (fun _ => false) (some sampleSel) false sampleTables.rules = [.head (some "b"), .rule 12 2 1 .even] ∧
    rows sampleId (fun _ => false) (some sampleSel) true sampleTables.rules =
      [.head (some "a"), .rule 10 1 1 .filtered, .rule 11 1 2 .filtered, .head (some "b"), .rule 12 2 1 .even] ∧
    (∀ s, some sampleSel = some s → ∀ o ∈ sampleTables.rules, .obj o ∈ s → idEl (sampleId o) ∈ s) := by
  refine ⟨by decide +kernel, by decide +kernel, by decide +kernel, ?_⟩
  rintro s e
  cases e
  decide +kernel

/-- A link of the row of the selected rule, and its anchor. -/
theorem C102_sample : (.names, "mail") ∈ links sampleHeap 12 ∧ Anchored id sampleHeap sampleTables (some sampleSel) false (.names, "mail") :=
  ⟨by decide +kernel, ⟨"mail", 5, false⟩, by decide +kernel, Or.inl rfl⟩

/-- What the NAT entry refers to. -/
def natSel : List El := [.obj 20, .obj 6, .obj 8, .none, .obj 7, .str "NAT", .str "NetworkObject"]

/-- The hypotheses of `C102_violated_interfaces` are met: a filter selects the NAT entry, whose row links to its interface; the page without
a filter has the anchor. -/
theorem C102_violated_sample : Completes sampleHeap sampleTables [20] (some natSel) ∧
    natRows sampleTables (some natSel) false = [20] ∧ (.interface, "inside") ∈ links sampleHeap 20 ∧
    Anchored id sampleHeap sampleTables none false (.interface, "inside") ∧
    ¬ Anchored id sampleHeap sampleTables (some natSel) false (.interface, "inside") := by
  have hf : ∃ l, fields (info sampleHeap) [] (.obj 20) = .ok l ∧ ∀ y ∈ l, y ∈ natSel := ⟨_, rfl, by decide⟩
  have hc : Completes sampleHeap sampleTables [20] (some natSel) := by
    refine completes_of (by decide) (by decide) ?_ (by decide +kernel) (by decide +kernel)
    intro x hx
    simp only [List.map_cons, List.map_nil, List.mem_cons, List.not_mem_nil, or_false] at hx
    subst hx
    exact hf
  refine ⟨hc, by decide +kernel, by decide +kernel,
    (C102_interfaces_unfiltered id sampleHeap sampleTables sample_wf none false (Or.inl rfl) "inside").2 ⟨"Vlan1", 30, by decide, Or.inr rfl⟩,
    C102_violated_interfaces id sampleHeap sampleTables sample_wf [20] natSel hc ?_ "inside"⟩
  intro o ho h
  cases List.mem_singleton.1 ho
  have := (fields_ok_mem (info := info sampleHeap) (ags := []) (x := .obj 20) rfl (.str "Interface")).2 ⟨20, rfl, h⟩
  exact absurd this (by decide)

/-- A rule of a group that was defined a second time later: the group the rule means is not the one in the table. -/
def redefinedHeap : Oid → Obj
  | 1 => .protocol "tcp"
  | 2 => .group .network "g" [.obj 7]
  | 3 => .group .network "g" []
  | 10 => .rule (some "a") (.obj 1) (.obj 2) .none (.obj 7) .none none []
  | _ => .other

def redefinedTables : Tables where
  names := []
  table
    | .group .network => [("g", 3)]
    | _ => []
  nat := []
  rules := [10]

/-- **C102 is violated: redefined groups.** The rule is selected with what it refers to, its row has the link, the page has no such anchor. -/
theorem C102_violated_redefined : ∃ r, Completes redefinedHeap redefinedTables [10] (some r) ∧
    OnPage id redefinedHeap (fun _ => some "a") (fun _ => false) redefinedTables (some r) false 10 ∧
    (.group .network, "g") ∈ links redefinedHeap 10 ∧
    ¬ Anchored id redefinedHeap redefinedTables (some r) false (.group .network, "g") := by
  refine ⟨[.obj 10, .obj 1, .obj 2, .none, .obj 7, .str "a", .str "NetworkGroup"],
    completes_of (by decide) (by decide) ?_ (by decide +kernel) (by decide +kernel), .rule (i := 1) (j := 1) (c := .even) (by decide +kernel), by decide +kernel, ?_⟩
  · intro x hx
    simp only [List.map_cons, List.map_nil, List.mem_cons, List.not_mem_nil, or_false] at hx
    subst hx
    exact ⟨_, rfl, by decide⟩
  · rintro ⟨e, he, -⟩
    rw [show entries id redefinedHeap redefinedTables _ _ _ = [] by decide +kernel] at he
    cases he

end Acltk.Page
