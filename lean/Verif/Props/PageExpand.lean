import Verif.Model.PageExpand
import Verif.Spec.PageExpandSpec
import Verif.Props.GroupHeap
import Verif.Props.PageSort
import Verif.Props.FwsmPage
/-!
# C114: the page with `--expand`
-/
namespace Acltk.Page
open Acltk Acltk.Resolve

variable {heap : Oid → Obj} {svc : Oid → Oid} {tb : Tables}

theorem toMem_obj (c : GroupClass) (o : Oid) : (∃ n l, heap o = .group c n l ∧ toMem heap c (.obj o) = .ref o) ∨
    ((∀ n l, heap o ≠ .group c n l) ∧ toMem heap c (.obj o) = .item (.obj o)) := by
  simp only [toMem]
  cases e : heap o with
  | group c' n l =>
    by_cases hc : c' = c
    · subst hc
      exact .inl ⟨n, l, rfl, by simp⟩
    · refine .inr ⟨fun n' l' e' => ?_, by simp [hc]⟩
      cases e'
      exact hc rfl
  | _ => exact .inr ⟨fun _ _ e' => (by cases e'), rfl⟩

theorem toMem_ref {c : GroupClass} {x : El} {g : Nat} (h : toMem heap c x = .ref g) : x = .obj g ∧ ∃ n l, heap g = .group c n l := by
  cases x with
  | obj o =>
    rcases toMem_obj (heap := heap) c o with ⟨n, l, h1, h2⟩ | ⟨-, h2⟩ <;> rw [h2] at h <;> cases h
    exact ⟨rfl, n, l, h1⟩
  | _ => cases h

theorem toMem_item {c : GroupClass} {x a : El} (h : toMem heap c x = .item a) : x = a ∧ ∀ o n m, x = .obj o → heap o ≠ .group c n m := by
  cases x with
  | obj o =>
    rcases toMem_obj (heap := heap) c o with ⟨n, l, h1, h2⟩ | ⟨h1, h2⟩ <;> rw [h2] at h <;> cases h
    refine ⟨rfl, fun o' n' m' he => ?_⟩
    cases he
    exact h1 _ _
  | _ => cases h; exact ⟨rfl, fun _ _ _ he => by cases he⟩

theorem finOf_obj (c : GroupClass) (o : Oid) : (c = .network ∧ ∃ n as, heap o = .netObject n as ∧ finOf svc heap c (.obj o) = as) ∨
    (c = .service ∧ ∃ n, heap o = .svcObject n ∧ finOf svc heap c (.obj o) = [.obj (svc o)]) ∨
    ((c = .network → ∀ n as, heap o ≠ .netObject n as) ∧ (c = .service → ∀ n, heap o ≠ .svcObject n) ∧ finOf svc heap c (.obj o) = [.obj o]) := by
  simp only [finOf]
  cases e : heap o with
  | netObject n l =>
    cases c <;> first
      | exact .inl ⟨rfl, n, l, rfl, rfl⟩
      | exact .inr (.inr ⟨fun h => (by cases h), fun _ _ h => (by cases h), rfl⟩)
  | svcObject n =>
    cases c <;> first
      | exact .inr (.inl ⟨rfl, n, rfl, rfl⟩)
      | exact .inr (.inr ⟨fun _ _ _ h => (by cases h), fun h => (by cases h), rfl⟩)
  | _ => exact .inr (.inr ⟨fun _ _ _ h => (by cases h), fun _ _ h => (by cases h), by cases c <;> rfl⟩)

theorem finOf_plain {c : GroupClass} {o : Oid} (h : heap o = .address none ∨ heap o = .other) : finOf svc heap c (.obj o) = [.obj o] := by
  rcases finOf_obj (heap := heap) (svc := svc) c o with ⟨-, _, _, e, -⟩ | ⟨-, _, e, -⟩ | ⟨-, -, e⟩
  · rcases h with h | h <;> rw [h] at e <;> cases e
  · rcases h with h | h <;> rw [h] at e <;> cases e
  · exact e

theorem ofMem_toMem (c : GroupClass) (x : El) : ofMem (toMem heap c x) = x := by
  cases h : toMem heap c x with
  | ref g => exact (toMem_ref h).1.symm
  | item a => exact (toMem_item h).1.symm

theorem members_group {c : GroupClass} {o : Oid} {n : String} {l : List El} (h : heap o = .group c n l) : members heap c o = l.map (toMem heap c) := by
  simp [members, h]

/-- The leaves in the heap of groups, with the members that `expand` replaces, are the new members. -/
theorem flat_of_leaves {c : GroupClass} {ms : List (Mem El)} {a : List El} (h : HeapLeaves (members heap c) ms a) :
    ∀ l : List El, ms = l.map (toMem heap c) → Flat heap svc c l (a.flatMap (finOf svc heap c)) := by
  induction h with
  | nil =>
    intro l hl
    cases l with
    | nil => exact .nil
    | cons => cases hl
  | @item a t l0 ht ih =>
    intro l hl
    cases l with
    | nil => cases hl
    | cons x l =>
      simp only [List.map_cons, List.cons.injEq] at hl
      obtain ⟨hx, hl⟩ := hl
      obtain ⟨rfl, hg⟩ := toMem_item hx.symm
      have ih := ih l hl
      simp only [List.flatMap_cons]
      cases x with
      | obj o =>
        rcases finOf_obj (heap := heap) (svc := svc) c o with ⟨h1, n, as, e, hf⟩ | ⟨h1, n, e, hf⟩ | ⟨h1, h2, hf⟩
        · rw [hf]
          exact .addresses h1 e ih
        · rw [hf]
          exact .service h1 e ih
        · rw [hf]
          refine .item hg ?_ ?_ ih
          · intro hc o' n' m' he e'
            cases he
            exact h1 hc _ _ e'
          · intro hc o' n' he e'
            cases he
            exact h2 hc _ e'
      | _ => exact .item hg (fun _ _ _ _ he => by cases he) (fun _ _ _ he => by cases he) ih
  | @ref g t l1 l2 h1 h2 ih1 ih2 =>
    intro l hl
    cases l with
    | nil => cases hl
    | cons x l =>
      simp only [List.map_cons, List.cons.injEq] at hl
      obtain ⟨hx, hl⟩ := hl
      obtain ⟨rfl, n, m, e⟩ := toMem_ref hx.symm
      rw [List.flatMap_append]
      exact .group e (ih1 m (members_group e)) (ih2 l hl)

/-- Some of the classes have been expanded. -/
structure Partly (heap : Oid → Obj) (svc : Oid → Oid) (tb : Tables) (done : List GroupClass) (heap1 : Oid → Obj) : Prop where
  others : ∀ o, (∀ c n l, heap o ≠ .group c n l) → heap1 o = heap o
  groups : ∀ o c n l, heap o = .group c n l →
    ((∃ k, dGet (tb.table (.group c)) k = some o) → c ∈ done → ∃ l', Flat heap svc c l l' ∧ heap1 o = .group c n l') ∧
    (¬ ((∃ k, dGet (tb.table (.group c)) k = some o) ∧ c ∈ done) → heap1 o = heap o)

theorem Partly.cls {done : List GroupClass} {heap1 : Oid → Obj} (P : Partly heap svc tb done heap1) (o : Oid) :
    (∀ c n l, heap o = .group c n l → ∃ l', heap1 o = .group c n l') ∧ ((∀ c n l, heap o ≠ .group c n l) → heap1 o = heap o) := by
  refine ⟨fun c n l h => ?_, P.others o⟩
  by_cases hc : (∃ k, dGet (tb.table (.group c)) k = some o) ∧ c ∈ done
  · obtain ⟨l', -, e⟩ := (P.groups o c n l h).1 hc.1 hc.2
    exact ⟨l', e⟩
  · exact ⟨l, ((P.groups o c n l h).2 hc).trans h⟩

theorem Partly.toMem {done : List GroupClass} {heap1 : Oid → Obj} (P : Partly heap svc tb done heap1) (c : GroupClass) : toMem heap1 c = toMem heap c := by
  funext x
  cases x with
  | obj o =>
    unfold Page.toMem
    by_cases h : ∃ c n l, heap o = .group c n l
    · obtain ⟨c', n, l, e⟩ := h
      obtain ⟨l', e'⟩ := (P.cls o).1 _ _ _ e
      simp [e, e']
    · simp only [P.others o fun c n l e => h ⟨c, n, l, e⟩]
  | _ => rfl

theorem Partly.fin {done : List GroupClass} {heap1 : Oid → Obj} (P : Partly heap svc tb done heap1) (c : GroupClass) : finOf svc heap1 c = finOf svc heap c := by
  funext x
  cases x with
  | obj o =>
    unfold finOf
    by_cases h : ∃ c n l, heap o = .group c n l
    · obtain ⟨c', n, l, e⟩ := h
      obtain ⟨l', e'⟩ := (P.cls o).1 _ _ _ e
      simp [e, e']
    · simp only [P.others o fun c n l e => h ⟨c, n, l, e⟩]
  | _ => rfl

theorem Partly.members {done : List GroupClass} {heap1 : Oid → Obj} (P : Partly heap svc tb done heap1) {c : GroupClass} (hc : c ∉ done) :
    members heap1 c = members heap c := by
  funext o
  by_cases h : ∃ c n l, heap o = .group c n l
  · obtain ⟨c', n, l, e⟩ := h
    by_cases hcc : c' = c
    · subst hcc
      have e' : heap1 o = .group c' n l := ((P.groups o c' n l e).2 fun h => hc h.2).trans e
      rw [members_group e, members_group e', P.toMem]
    · obtain ⟨l', e'⟩ := (P.cls o).1 _ _ _ e
      simp [Page.members, e, e', hcc]
  · have := P.others o fun c n l e => h ⟨c, n, l, e⟩
    unfold Page.members
    rw [this]
    split
    · rename_i e
      exact absurd ⟨_, _, _, e⟩ h
    · rfl

/-- One class. -/
theorem class_ok (W : WellFormed heap tb) (hP : PlainAddresses heap) (hsvc : NewServices heap svc) {rank : Oid → Nat} (hN : Nested heap rank) {fuel : Nat}
    (hf : ∀ c k o, dGet (tb.table (.group c)) k = some o → rank o < fuel) {done : List GroupClass} {heap1 : Oid → Obj} (P : Partly heap svc tb done heap1)
    {c : GroupClass} (hc : c ∉ done) : ∃ heap2, expandClass svc fuel heap1 tb c = .ok heap2 ∧ Partly heap svc tb (c :: done) heap2 := by
  have finfin : ∀ g a, Mem.item a ∈ members heap c g → ∀ b ∈ finOf svc heap c a, finOf svc heap c b = [b] := by
    intro g a _ b hb
    cases a with
    | obj o =>
      rcases finOf_obj (heap := heap) (svc := svc) c o with ⟨h1, n, as, e, hf⟩ | ⟨h1, n, e, hf⟩ | ⟨h1, h2, hf⟩
      · rw [hf] at hb
        obtain ⟨q, rfl, h⟩ := hP _ _ _ e b hb
        exact finOf_plain h
      · rw [hf] at hb
        simp only [List.mem_singleton] at hb
        subst hb
        exact finOf_plain (.inr (hsvc _ _ e))
      · have hf' := hf
        rw [hf] at hb
        simp only [List.mem_singleton] at hb
        subst hb
        exact hf'
    | _ =>
      simp only [finOf, List.mem_singleton] at hb
      subst hb
      rfl
  have hA : Acyclic (members heap c) rank := by
    intro g g' h
    unfold members at h
    split at h
    · rename_i c' n l e
      split at h
      · rename_i hcc
        subst hcc
        obtain ⟨x, hx, hx'⟩ := List.mem_map.1 h
        obtain ⟨rfl, m, l', e'⟩ := toMem_ref hx'
        exact hN _ _ _ _ e _ _ _ hx e'
      · cases h
    · cases h
  obtain ⟨h', e1, e2, e3⟩ := C25_every_group_gets_its_leaves (finOf svc heap c) (members heap c) finfin rank hA fuel (dVals (tb.table (.group c)))
    (fun g hg => by
      obtain ⟨k, hk⟩ := (mem_dVals (W.nodup _)).1 hg
      exact hf c k g hk)
  refine ⟨put heap1 c h', by simp only [expandClass, P.fin, P.members hc, e1], ?_, ?_⟩
  · intro o ho
    have := P.others o ho
    unfold put
    split
    · rename_i e
      rw [this] at e
      exact absurd e (ho _ _ _)
    · exact this
  · intro o c' n l e
    by_cases hcc : c' = c
    · subst hcc
      have e' : heap1 o = .group c' n l := ((P.groups o c' n l e).2 fun h => hc h.2).trans e
      have hput : put heap1 c' h' o = .group c' n ((h' o).map ofMem) := by simp [put, e']
      constructor
      · intro hk _
        obtain ⟨a, h1, h2⟩ := e2 o ((mem_dVals (W.nodup _)).2 hk)
        refine ⟨a.flatMap (finOf svc heap c'), flat_of_leaves h1 l (members_group e), ?_⟩
        rw [hput, h2]
        simp [ofMem, Function.comp_def]
      · intro hk
        have : o ∉ dVals (tb.table (.group c')) := fun h => hk ⟨(mem_dVals (W.nodup _)).1 h, List.mem_cons_self ..⟩
        rw [hput, e3 o this, members_group e, e]
        simp [ofMem_toMem, Function.comp_def]
    · obtain ⟨l', e'⟩ := (P.cls o).1 _ _ _ e
      have hput : put heap1 c h' o = heap1 o := by simp [put, e', hcc]
      constructor
      · intro hk hd
        rw [hput]
        exact (P.groups o c' n l e).1 hk ((List.mem_cons.1 hd).resolve_left hcc)
      · intro hk
        rw [hput]
        exact (P.groups o c' n l e).2 fun h => hk ⟨h.1, List.mem_cons_of_mem _ h.2⟩

theorem classes_ok (W : WellFormed heap tb) (hP : PlainAddresses heap) (hsvc : NewServices heap svc) {rank : Oid → Nat} (hN : Nested heap rank) {fuel : Nat}
    (hf : ∀ c k o, dGet (tb.table (.group c)) k = some o → rank o < fuel) : ∀ (cs done : List GroupClass) (heap1 : Oid → Obj), Partly heap svc tb done heap1 →
    cs.Nodup → (∀ c ∈ cs, c ∉ done) → ∃ heap2, expandClasses svc fuel tb heap1 cs = .ok heap2 ∧ ∃ done', (∀ c, c ∈ done' ↔ c ∈ cs ∨ c ∈ done) ∧ Partly heap svc tb done' heap2 := by
  intro cs
  induction cs with
  | nil => intro done heap1 P _ _; exact ⟨heap1, rfl, done, by simp, P⟩
  | cons c cs ih =>
    intro done heap1 P hnd hd
    rw [List.nodup_cons] at hnd
    obtain ⟨h2, e2, P2⟩ := class_ok W hP hsvc hN hf P (hd c (List.mem_cons_self ..))
    obtain ⟨h3, e3, done', i1, i2⟩ := ih (c :: done) h2 P2 hnd.2 (by
      intro c' hc' hm
      rcases List.mem_cons.1 hm with rfl | hm
      · exact hnd.1 hc'
      · exact hd c' (List.mem_cons_of_mem _ hc') hm)
    refine ⟨h3, by simp only [expandClasses, e2, e3], done', fun c' => ?_, i2⟩
    rw [i1, List.mem_cons, List.mem_cons]
    constructor
    · rintro (h | h | h)
      · exact .inl (.inr h)
      · exact .inl (.inl h)
      · exact .inr h
    · rintro ((h | h) | h)
      · exact .inr (.inl h)
      · exact .inl h
      · exact .inr (.inr h)

/-- **C114, what `--expand` does.** If no group contains itself, the expansion never raises; afterwards every listed group has its leaves as members, and nothing else has changed. -/
theorem C114_expand (W : WellFormed heap tb) (hP : PlainAddresses heap) (hsvc : NewServices heap svc) {rank : Oid → Nat} (hN : Nested heap rank) {fuel : Nat}
    (hf : ∀ c k o, dGet (tb.table (.group c)) k = some o → rank o < fuel) : ∃ heap', expand svc fuel tb heap = .ok heap' ∧ Expanded heap svc tb heap' := by
  obtain ⟨heap', e, done', i1, P⟩ := classes_ok W hP hsvc hN hf [.network, .port, .service, .protocol, .icmp] [] heap
    ⟨fun _ _ => rfl, fun _ _ _ _ _ => ⟨fun _ h => (by cases h), fun _ => rfl⟩⟩ (by decide) (by simp)
  refine ⟨heap', e, P.others, ?_, ?_⟩
  · intro c k o n l h1 h2
    refine (P.groups o c n l h2).1 ⟨k, h1⟩ ((i1 c).2 (Or.inl ?_))
    cases c <;> decide
  · intro c o n l h1 h2
    exact (P.groups o c n l h2).2 fun ⟨⟨k, h⟩, _⟩ => h1 k h

end Acltk.Page
