import Verif.Model.Learn
import Verif.Props.Config
/-!
# C37: references and tables
-/
namespace Acltk.Config
open Acltk

/-- The objects a part of the history defines under this name, in order. -/
def defined (ev : List Event) (k : Kind) (n : String) : List Oid :=
  ev.filterMap (fun e => match e with
    | .define k' n' o => if k' = k ∧ n' = n then some o else none
    | .refer .. => none)

/-- **The property C37 states**: every reference of a parsed file is bound to the object the tables
list under that name. -/
def ReferencesAgree (refs : List (Kind × String × Oid)) (c : Cfg) : Prop :=
  ∀ k n o, (k, n, o) ∈ refs → dGet (tableOf k c) n = some o

/-- **C37 is violated** by service objects defined twice: the reference is bound to the first
definition, the table lists the second. -/
theorem C37_violated_service_object :
    ∃ refs c, parseHistory (fun _ => "") (fun _ => [])
        [.define .svcObj "web" 1, .define .svcObj "web" 2, .refer .svcObj "web"] = some (refs, c) ∧
      (.svcObj, "web", 1) ∈ refs ∧ dGet (tableOf .svcObj c) "web" = some 2 ∧
      ¬ ReferencesAgree refs c := by
  refine ⟨[(.svcObj, "web", 1)], _, rfl, by simp, by decide +kernel, ?_⟩
  intro h
  have h1 := h .svcObj "web" 1 (by simp)
  revert h1
  decide +kernel

/-- **C37 is violated** by groups defined again after they were used. -/
theorem C37_violated_group :
    ∃ refs c, parseHistory (fun _ => "") (fun _ => [])
        [.define .netGroup "g" 1, .refer .netGroup "g", .define .netGroup "g" 2] = some (refs, c) ∧
      (.netGroup, "g", 1) ∈ refs ∧ dGet (tableOf .netGroup c) "g" = some 2 ∧
      ¬ ReferencesAgree refs c := by
  refine ⟨[(.netGroup, "g", 1)], _, rfl, by simp, by decide +kernel, ?_⟩
  intro h
  have h1 := h .netGroup "g" 1 (by simp)
  revert h1
  decide +kernel

theorem defsOf_items (ev : List Event) (k : Kind) (n : String) :
    defsOf k (ev.filterMap itemOf) n = defined ev k n := by
  induction ev with
  | nil => rfl
  | cons e t ih =>
    unfold defsOf defined at ih ⊢
    cases e with
    | refer k' n' => simpa only [List.filterMap_cons, itemOf] using ih
    | define k' n' o =>
      have hkey : ∀ i, itemOf (.define k' n' o) = some i →
          definesOf k i = if k' = k then some (n', o) else none := by
        intro i hi
        cases k' <;> simp only [itemOf, Option.some.injEq] at hi <;> subst hi <;>
          cases k <;> simp [definesOf]
      have hsome : ∃ i, itemOf (.define k' n' o) = some i := by
        cases k' <;> exact ⟨_, rfl⟩
      obtain ⟨i, hi⟩ := hsome
      have hd := hkey i hi
      simp only [List.filterMap_cons, hi, hd]
      by_cases hk : k' = k
      · by_cases hn : n' = n
        · simp only [hk, hn, if_true, and_self, List.filter_cons, beq_self_eq_true, List.map_cons]
          rw [ih]
        · simp only [hk, hn, if_true, and_false, if_false, List.filter_cons, beq_iff_eq]
          exact ih
      · simp only [hk, if_false, false_and]
        exact ih

/-- What the parser's table holds after a part of the history. -/
theorem learn_table (k : Kind) (n : String) (pre : List Event) :
    ∀ (t : Tables) , dGet (pre.foldl (fun t e => match e with
        | .define k n o => learn t k n o
        | .refer .. => t) t k) n =
      if k = .netObj ∨ k = .svcObj then (dGet (t k) n).or (defined pre k n).head?
      else (defined pre k n).getLast?.or (dGet (t k) n) := by
  induction pre with
  | nil => intro t; simp [defined]
  | cons e rest ih =>
    intro t
    rw [List.foldl_cons, ih]
    cases e with
    | refer k' n' => simp [defined]
    | define k' n' o =>
      have hdef : defined (.define k' n' o :: rest) k n =
          (if k' = k ∧ n' = n then [o] else []) ++ defined rest k n := by
        unfold defined
        by_cases h : k' = k ∧ n' = n <;> simp [h]
      rw [hdef]
      simp only [learn]
      by_cases hk : k' = k
      · subst hk
        by_cases hn : n' = n
        · subst hn
          by_cases hfirst : k' = .netObj ∨ k' = .svcObj
          · simp only [hfirst, if_true, true_and, and_self]
            cases hg : dGet (t k') n' with
            | none => simp [dGet_dSet]
            | some v => simp [hg]
          · simp only [hfirst, if_false, if_true, false_and, and_self, dGet_dSet]
            cases hl : (defined rest k' n').getLast? with
            | none => simp [List.getLast?_cons, hl]
            | some v => simp [List.getLast?_cons, hl]
        · by_cases hc : (k' = .netObj ∨ k' = .svcObj) ∧ (dGet (t k') n').isSome = true
          · simp [hn, hc]
          · simp [hn, hc, dGet_dSet, Ne.symm hn]
      · simp [hk, Ne.symm hk]

/-- A resolved reference: the history splits at it, and the object is what the table held then. -/
theorem runEvents_mem (ev : List Event) : ∀ (t : Tables) refs, runEvents t ev = some refs →
    ∀ k n o, (k, n, o) ∈ refs → ∃ pre post, ev = pre ++ .refer k n :: post ∧
      dGet (pre.foldl (fun t e => match e with
        | .define k n o => learn t k n o
        | .refer .. => t) t k) n = some o := by
  induction ev with
  | nil => intro t refs h; simp [runEvents] at h; subst h; simp
  | cons e rest ih =>
    intro t refs h k n o hm
    cases e with
    | define k' n' o' =>
      obtain ⟨pre, post, he, hg⟩ := ih _ _ h k n o hm
      exact ⟨.define k' n' o' :: pre, post, by simp [he], hg⟩
    | refer k' n' =>
      simp only [runEvents] at h
      cases hg : dGet (t k') n' with
      | none => simp [hg] at h
      | some o' =>
        rw [hg] at h
        simp only [Option.map_eq_some_iff] at h
        obtain ⟨refs', hr, rfl⟩ := h
        rcases List.mem_cons.1 hm with e | hm
        · simp only [Prod.mk.injEq] at e
          obtain ⟨rfl, rfl, rfl⟩ := e
          exact ⟨[], rest, rfl, hg⟩
        · obtain ⟨pre, post, he, hg⟩ := ih _ _ hr k n o hm
          exact ⟨.refer k' n' :: pre, post, by simp [he], hg⟩

theorem defined_append (a b : List Event) (k n) :
    defined (a ++ b) k n = defined a k n ++ defined b k n := by
  simp [defined]

/-- **C37, the part that holds.**  In every history a reference is bound to a definition that
precedes it: the first one for network and service objects, the last one before it for groups and
time ranges.  The tables agree with it always for network objects, for service objects when the
first definition of the file is also the last one, and for the others when no later definition
follows the reference. -/
theorem C37_references_partial (agName : Oid → String) (h : Oid → Dict String Oid)
    (ev : List Event) (refs : List (Kind × String × Oid)) (c : Cfg)
    (hp : parseHistory agName h ev = some (refs, c)) (k : Kind) (n : String) (o : Oid)
    (hm : (k, n, o) ∈ refs) :
    ∃ pre post, ev = pre ++ .refer k n :: post ∧
      (if k = .netObj ∨ k = .svcObj then (defined pre k n).head? = some o
       else (defined pre k n).getLast? = some o) ∧
      (k = .netObj → dGet (tableOf k c) n = some o) ∧
      (k = .svcObj → (dGet (tableOf k c) n = some o ↔ (defined ev k n).getLast? = some o)) ∧
      (k ≠ .netObj → k ≠ .svcObj → defined post k n = [] → dGet (tableOf k c) n = some o) := by
  simp only [parseHistory, Option.map_eq_some_iff, Prod.mk.injEq] at hp
  obtain ⟨refs', hr, rfl, rfl⟩ := hp
  obtain ⟨pre, post, he, hg⟩ := runEvents_mem ev _ _ hr k n o hm
  rw [learn_table] at hg
  have hbind : if k = .netObj ∨ k = .svcObj then (defined pre k n).head? = some o
       else (defined pre k n).getLast? = some o := by
    split
    · rename_i hk; rw [if_pos hk] at hg; simpa [dGet] using hg
    · rename_i hk; rw [if_neg hk] at hg; simpa [dGet] using hg
  have h36 := C36_definition_tables agName h (ev.filterMap itemOf) n
  have hev : defined ev k n = defined pre k n ++ defined post k n := by
    rw [he, defined_append]; simp [defined]
  refine ⟨pre, post, he, hbind, ?_, ?_, ?_⟩
  · rintro rfl
    simp only [true_or, if_true] at hbind
    rw [h36.2.1, defsOf_items, hev, List.head?_append, hbind]; rfl
  · rintro rfl
    rw [h36.1 _ (by decide), defsOf_items]
  · intro h1 h2 h3
    simp only [h1, h2, or_self, if_false] at hbind
    rw [h36.1 _ h1, defsOf_items, hev, h3, List.append_nil, hbind]

/-- A name that is defined once: every reference agrees with the tables. -/
theorem C37_single_definition_partial (agName : Oid → String) (h : Oid → Dict String Oid)
    (ev : List Event) (refs : List (Kind × String × Oid)) (c : Cfg)
    (hp : parseHistory agName h ev = some (refs, c))
    (hone : ∀ k n, (defined ev k n).length ≤ 1) : ReferencesAgree refs c := by
  intro k n o hm
  obtain ⟨pre, post, he, hb, h1, h2, h3⟩ := C37_references_partial agName h ev refs c hp k n o hm
  have hev : defined ev k n = defined pre k n ++ defined post k n := by
    rw [he, defined_append]; simp [defined]
  have hlen := hone k n
  rw [hev] at hlen
  simp only [List.length_append] at hlen
  have hpre : defined pre k n ≠ [] := by
    intro e; rw [e] at hb; split at hb <;> simp at hb
  have hpos : 0 < (defined pre k n).length := List.length_pos_iff.2 hpre
  have hpost : defined post k n = [] := List.eq_nil_of_length_eq_zero (by omega)
  by_cases hk1 : k = .netObj
  · exact h1 hk1
  by_cases hk2 : k = .svcObj
  · rw [h2 hk2, hev, hpost, List.append_nil]
    subst hk2
    simp only [or_true, if_true] at hb
    match hd : defined pre .svcObj n, hb, hlen with
    | [x], hb, _ => simpa using hb
    | x :: y :: t, _, hlen => simp at hlen; omega
  · exact h3 hk1 hk2 hpost

/-- A history with a reference of every class meets the hypotheses. -/
theorem C37_sample :
    ∃ refs c, parseHistory (fun _ => "") (fun _ => [])
        [.define .netObj "a" 1, .refer .netObj "a", .define .netGroup "g" 2, .define .svcObj "s" 3,
         .refer .netGroup "g", .refer .svcObj "s"] = some (refs, c) ∧
      refs = [(.netObj, "a", 1), (.netGroup, "g", 2), (.svcObj, "s", 3)] :=
  ⟨_, _, rfl, rfl⟩

end Acltk.Config
