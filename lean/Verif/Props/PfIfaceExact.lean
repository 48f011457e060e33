import Verif.Props.PfIface
/-!
# C58, C59: exactly which interfaces keep their network and their rules
-/
namespace Acltk.Pf
open Acltk Acltk.Ifc

/-- The name under which the configuration lists the interface of an element: of a fixed interface its tag, of an optional one its description, and its tag if it has none. -/
inductive ListedAs {T : Type} (v : Env T) (e : Elem) : String → Prop
  | fixed : ¬ OptTag e.tag → ListedAs v e e.tag
  | tag : OptTag e.tag → lastChild e "descr" = none → ListedAs v e (v.unesc e.tag)
  | description (c : Elem) (d : String) : OptTag e.tag → lastChild e "descr" = some c → c.text = some d → ListedAs v e (v.unesc d)

theorem IfaceMeans.listedAs {T : Type} {v : Env T} {e : Elem} {o : Intf} (h : IfaceMeans v e o) {s : String} : ListedAs v e s ↔ s = o.alias := by
  cases h with
  | opt ci d ho hci hd =>
    cases hc : lastChild e "descr" with
    | none =>
      rw [hc] at hd; simp at hd; subst hd
      constructor
      · intro h; cases h with
        | fixed h => exact absurd ho h
        | tag => rfl
        | description c d _ h => rw [hc] at h; cases h
      · rintro rfl; exact .tag ho hc
    | some c =>
      rw [hc] at hd; simp at hd
      constructor
      · intro h; cases h with
        | fixed h => exact absurd ho h
        | tag _ h => rw [hc] at h; cases h
        | description c' d' _ h h' => rw [hc] at h; cases h; rw [hd] at h'; cases h'; rfl
      · rintro rfl; exact .description c d ho hc hd
  | std ci d ho hci hd =>
    constructor
    · intro h; cases h with
      | fixed => rfl
      | tag h => exact absurd h ho
      | description _ _ h => exact absurd h ho
    · rintro rfl; exact .fixed ho

theorem All2.left {α β : Type} {R : α → β → Prop} {l : List α} {m : List β} (h : All2 R l m) : ∀ x ∈ l, ∃ (k : Nat) (y : β), l[k]? = some x ∧ m[k]? = some y ∧ R x y := by
  induction h with
  | nil => intro y hy; cases hy
  | cons h1 h2 ih =>
    intro y hy
    rcases List.mem_cons.1 hy with rfl | hy
    · exact ⟨0, _, rfl, rfl, h1⟩
    · obtain ⟨k, x, h3, h4, h5⟩ := ih y hy
      exact ⟨k + 1, x, by simpa using h3, by simpa using h4, h5⟩

/-- **C58, exactly.** A rule may name the network of an interface by its tag exactly if some interface of the configuration is listed under that tag. -/
theorem C58_exact {T : Type} (v : Env T) (l : List Elem) (t : Tables) (os : List Intf) (h : parseIfaces v {} l = .ok (t, os)) (s : String) :
    (∃ x, networkChild t (some s) = .ok x) ↔ ∃ e ∈ l, ListedAs v e s := by
  have hm := (parseIfaces_means h).1
  constructor
  · rintro ⟨x, hx⟩
    obtain ⟨-, o, ho, rfl⟩ := ((C58_networks_partial v l t os h).1 s x).1 hx
    obtain ⟨k, e, h1, -, h3⟩ := forall₂_mem_right hm o ho
    exact ⟨e, List.mem_of_getElem? h1, h3.listedAs.2 rfl⟩
  · rintro ⟨e, he, hl⟩
    obtain ⟨k, o, -, h2, h3⟩ := hm.left e he
    exact ⟨_, ((C58_networks_partial v l t os h).1 s _).2 ⟨rfl, o, List.mem_of_getElem? h2, (h3.listedAs.1 hl).symm⟩⟩

theorem ListedAs.of_description {T : Type} {v : Env T} {e c : Elem} {s d : String} (hl : ListedAs v e s) (ho : OptTag e.tag) (hc : lastChild e "descr" = some c)
    (hd : c.text = some d) : s = v.unesc d := by
  cases hl with
  | fixed h => exact absurd ho h
  | tag _ h => rw [hc] at h; cases h
  | description c' d' _ h h' => rw [hc] at h; cases h; rw [hd] at h'; cases h'; rfl

/-- **C58 is violated by every optional interface** with another description than its tag, unless another interface has that tag for a name. -/
theorem C58_violated_all {T : Type} (v : Env T) (l : List Elem) (t : Tables) (os : List Intf) (h : parseIfaces v {} l = .ok (t, os))
    (e c : Elem) (d : String) (ho : OptTag e.tag) (hc : lastChild e "descr" = some c) (hd : c.text = some d) (hne : v.unesc d ≠ e.tag)
    (hothers : ∀ e' ∈ l, e' ≠ e → ¬ ListedAs v e' e.tag) : ¬ ∃ x, networkChild t (some e.tag) = .ok x := by
  rw [C58_exact v l t os h]
  rintro ⟨e', he', hl⟩
  by_cases hee : e' = e
  · subst hee
    exact hne (hl.of_description ho hc hd).symm
  · exact hothers e' he' hee hl

/-- The tag or description by which the rules of the interface of an element are found: of a fixed interface its description (empty if it has none), of an optional one its tag. -/
inductive FoundBy {T : Type} (v : Env T) (e : Elem) : String → Prop
  | optional : OptTag e.tag → FoundBy v e e.tag
  | described (c : Elem) (d : String) : ¬ OptTag e.tag → lastChild e "descr" = some c → c.text = some d → FoundBy v e (v.unesc d)
  | plain : ¬ OptTag e.tag → lastChild e "descr" = none → FoundBy v e (v.unesc "")

theorem IfaceMeans.foundBy {T : Type} {v : Env T} {e : Elem} {o : Intf} (h : IfaceMeans v e o) {s : String} : FoundBy v e s ↔ o.description = some s := by
  cases h with
  | opt ci d ho hci hd =>
    simp only [Option.some.injEq]
    constructor
    · intro h; cases h with
      | optional => rfl
      | described _ _ h => exact absurd ho h
      | plain h => exact absurd ho h
    · rintro rfl; exact .optional ho
  | std ci d ho hci hd =>
    simp only [Option.some.injEq]
    cases hc : lastChild e "descr" with
    | none =>
      rw [hc] at hd; simp at hd; subst hd
      constructor
      · intro h; cases h with
        | optional h => exact absurd h ho
        | described _ _ _ h => rw [hc] at h; cases h
        | plain => rfl
      · rintro rfl; exact .plain ho hc
    | some c =>
      rw [hc] at hd; simp at hd
      constructor
      · intro h; cases h with
        | optional h => exact absurd h ho
        | described c' d' _ h h' => rw [hc] at h; cases h; rw [hd] at h'; cases h'; rfl
        | plain _ h => rw [hc] at h; cases h
      · rintro rfl; exact .described c d ho hc hd

theorem filter_last_index {α : Type} (p : α → Bool) (l : List α) {x : α} (h : (l.filter p).getLast? = some x) :
    ∃ k : Nat, l[k]? = some x ∧ p x = true ∧ ∀ (j : Nat) y, k < j → l[j]? = some y → p y = false := by
  induction l using snocInd with
  | nil => simp at h
  | snoc l a ih =>
    rw [List.filter_append] at h
    by_cases ha : p a = true
    · have : x = a := by simpa [ha] using h.symm
      subst this
      refine ⟨l.length, by simp, ha, ?_⟩
      intro j y hj hy
      rw [List.getElem?_eq_none (by simp; omega)] at hy
      cases hy
    · have : (l.filter p).getLast? = some x := by simpa [ha] using h
      obtain ⟨k, h1, h2, h3⟩ := ih this
      have hk : k < l.length := by
        rcases Nat.lt_or_ge k l.length with h | h
        · exact h
        · rw [List.getElem?_eq_none h] at h1; cases h1
      refine ⟨k, by rw [List.getElem?_append_left hk]; exact h1, h2, ?_⟩
      intro j y hj hy
      rcases Nat.lt_trichotomy j l.length with h | h | h
      · rw [List.getElem?_append_left h] at hy; exact h3 j y hj hy
      · subst h; simp at hy; subst hy; simpa using ha
      · rw [List.getElem?_eq_none (by simp; omega)] at hy; cases hy

/-- **C59, exactly.** A rule given for `s` belongs to the list named after the last interface that is found by `s`; if there is none, to the list named `s`. -/
theorem C59_exact {T : Type} (v : Env T) (l : List Elem) (t : Tables) (os : List Intf) (h : parseIfaces v {} l = .ok (t, os)) (s : String) :
    (∃ (k : Nat) (e : Elem), l[k]? = some e ∧ FoundBy v e s ∧ ListedAs v e (t.mapped s) ∧ ∀ (j : Nat) e', k < j → l[j]? = some e' → ¬ FoundBy v e' s) ∨
    ((∀ e ∈ l, ¬ FoundBy v e s) ∧ t.mapped s = s) := by
  obtain ⟨hm, rfl⟩ := parseIfaces_means h
  have hlen : ∀ {j : Nat} {e' : Elem}, l[j]? = some e' → ∃ o', os[j]? = some o' ∧ IfaceMeans v e' o' := by
    intro j e' hj
    clear h
    induction hm generalizing j with
    | nil => simp at hj
    | cons h1 h2 ih =>
      cases j with
      | zero => simp at hj; subst hj; exact ⟨_, by simp, h1⟩
      | succ j => simpa using ih (by simpa using hj)
  unfold Tables.mapped
  rw [addIfaces_ifmap]
  have hdg : dGet ({} : Tables).ifmap s = none := rfl
  rw [hdg, Option.or_none]
  cases hl : (os.filter (fun o => o.description == some s)).getLast? with
  | some o =>
    left
    obtain ⟨k, h1, h2, h3⟩ := filter_last_index _ _ hl
    have hk : ∃ e, l[k]? = some e ∧ IfaceMeans v e o := by
      clear h hlen hl h3
      induction hm generalizing k with
      | nil => simp at h1
      | cons g1 g2 ih =>
        cases k with
        | zero => simp at h1; subst h1; exact ⟨_, by simp, g1⟩
        | succ k => simpa using ih (k := k) (by simpa using h1)
    obtain ⟨e, he, hme⟩ := hk
    refine ⟨k, e, he, hme.foundBy.2 (by simpa using h2), hme.listedAs.2 rfl, ?_⟩
    intro j e' hj he' hf
    obtain ⟨o', ho', hm'⟩ := hlen he'
    have := h3 j o' hj ho'
    rw [hm'.foundBy.1 hf] at this
    simp at this
  | none =>
    right
    rw [List.getLast?_eq_none_iff, List.filter_eq_nil_iff] at hl
    refine ⟨?_, rfl⟩
    intro e he hf
    obtain ⟨k, o, -, h2, h3⟩ := hm.left e he
    exact hl o (List.mem_of_getElem? h2) (by simp [h3.foundBy.1 hf])

/-- The hypotheses are met: three interfaces, `wan` described as `lan`; the rules of `lan` go to `wan`, and the network of `opt1` cannot be named. -/
theorem C59_exact_sample : ∃ t os, parseIfaces sampleEnv {} [.mk "wan" none [leaf "if" (some "em0"), leaf "descr" (some "lan")], .mk "lan" none [leaf "if" (some "em1"), leaf "descr" (some "office")], dmz] =
    .ok (t, os) ∧ t.mapped "lan" = "wan" ∧ t.mapped "opt1" = "DMZ" ∧ (networkChild t (some "opt1") matches .error .value) = true := by
  refine ⟨_, _, rfl, ?_, ?_, ?_⟩ <;> decide +kernel

end Acltk.Pf
