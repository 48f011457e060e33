import Verif.Props.PageExpand
/-!
# C114: `--expand` and groups that contain themselves
-/
namespace Acltk.Page
open Acltk Acltk.Resolve

/-- The groups `S` contain each other in a circle: each is a group of class `c` with a member that is one of them. -/
def Circular (heap : Oid → Obj) (c : GroupClass) (S : Oid → Prop) : Prop := ∀ o, S o → ∃ n l, heap o = .group c n l ∧ ∃ q, S q ∧ .obj q ∈ l

theorem heapExpand_ref {α : Type} {heap : Heap α} {q : Nat} : ∀ (l : List (Mem α)) {fuel : Nat} {a : List α}, heapExpand heap fuel l = .ok a → .ref q ∈ l →
    ∃ f b, f < fuel ∧ heapExpand heap f (heap q) = .ok b := by
  intro l
  induction l with
  | nil => intro fuel a _ h; cases h
  | cons x t ih =>
    intro fuel a h hm
    cases fuel with
    | zero => simp [heapExpand] at h
    | succ fuel =>
      cases x with
      | item y =>
        simp only [heapExpand] at h
        cases e : heapExpand heap (fuel + 1) t with
        | error => rw [e] at h; cases h
        | ok r => exact ih e (by simpa using hm)
      | ref g =>
        simp only [heapExpand] at h
        cases e : heapExpand heap fuel (heap g) with
        | error => rw [e] at h; cases h
        | ok r =>
          rw [e] at h
          simp only at h
          cases e' : heapExpand heap (fuel + 1) t with
          | error => rw [e'] at h; cases h
          | ok r' =>
            rcases List.mem_cons.1 hm with hq | hm
            · cases hq
              exact ⟨fuel, r, by omega, e⟩
            · exact ih e' hm

theorem heapExpand_circle {α : Type} {heap : Heap α} {S : Nat → Prop} (h : ∀ o, S o → ∃ q, S q ∧ .ref q ∈ heap o) :
    ∀ (fuel : Nat) o, S o → ∃ e, heapExpand heap fuel (heap o) = .error e := by
  intro fuel
  induction fuel using Nat.strongRecOn with
  | ind fuel ih =>
    intro o ho
    cases e : heapExpand heap fuel (heap o) with
    | error x => exact ⟨x, rfl⟩
    | ok a =>
      obtain ⟨q, hq, hm⟩ := h o ho
      obtain ⟨f, b, hf, hb⟩ := heapExpand_ref _ e hm
      obtain ⟨x, hx⟩ := ih f hf q hq
      rw [hx] at hb
      cases hb

theorem expandAll_circle {α : Type} {fin : α → List α} {fuel : Nat} {S : Nat → Prop} : ∀ (order : List Nat) (heap : Heap α),
    (∀ o, S o → ∃ q, S q ∧ .ref q ∈ heap o) → (∃ o ∈ order, S o) → ∃ h e, expandAll fin fuel heap order = (h, .error e) := by
  intro order
  induction order with
  | nil => rintro _ _ ⟨o, h, _⟩; cases h
  | cons g gs ih =>
    rintro heap h ⟨o, hm, ho⟩
    simp only [expandAll, expandGroup]
    cases e : heapExpand heap fuel (heap g) with
    | error x => exact ⟨heap, x, rfl⟩
    | ok l =>
      have hg : ¬ S g := fun hg => by
        obtain ⟨x, hx⟩ := heapExpand_circle h fuel g hg
        rw [hx] at e
        cases e
      refine ih _ (fun o ho => ?_) ⟨o, ?_, ho⟩
      · obtain ⟨q, hq, hm⟩ := h o ho
        refine ⟨q, hq, ?_⟩
        have : o ≠ g := by rintro rfl; exact hg ho
        simpa [this] using hm
      · rcases List.mem_cons.1 hm with rfl | hm
        · exact absurd ho hg
        · exact hm

theorem class_circle {svc : Oid → Oid} {tb : Tables} {fuel : Nat} {heap : Oid → Obj} {c : GroupClass} {S : Oid → Prop} (hS : Circular heap c S)
    (hl : ∃ o ∈ dVals (tb.table (.group c)), S o) : ∃ e, expandClass svc fuel heap tb c = .error e := by
  obtain ⟨h, e, he⟩ := expandAll_circle (fin := finOf svc heap c) (fuel := fuel) (S := S) (dVals (tb.table (.group c))) (members heap c) (fun o ho => by
    obtain ⟨n, l, e, q, hq, hm⟩ := hS o ho
    obtain ⟨n', l', e', -⟩ := hS q hq
    refine ⟨q, hq, ?_⟩
    rw [members_group e]
    exact List.mem_map.2 ⟨_, hm, by simp [toMem, e']⟩) hl
  exact ⟨e, by simp only [expandClass, he]⟩

theorem circular_put {heap : Oid → Obj} {c c' : GroupClass} {S : Oid → Prop} (hS : Circular heap c S) (hc : c ≠ c') (h : Heap El) : Circular (put heap c' h) c S := by
  intro o ho
  obtain ⟨n, l, e, q, hq, hm⟩ := hS o ho
  exact ⟨n, l, by simp [put, e, hc], q, hq, hm⟩

/-- **C114, circles.** If a listed group contains itself, directly or through others, `--expand` raises whatever the stack. -/
theorem C114_circle_raises {heap : Oid → Obj} {svc : Oid → Oid} {tb : Tables} {c : GroupClass} {S : Oid → Prop} (hS : Circular heap c S)
    (hn : (dKeys (tb.table (.group c))).Nodup) {k : String} {o : Oid} (hk : dGet (tb.table (.group c)) k = some o) (ho : S o) (fuel : Nat) :
    ∃ e, expand svc fuel tb heap = .error e := by
  have hl : ∃ o ∈ dVals (tb.table (.group c)), S o := ⟨o, (mem_dVals hn).2 ⟨k, hk⟩, ho⟩
  have key : ∀ (cs : List GroupClass) (heap : Oid → Obj), Circular heap c S → c ∈ cs → ∃ e, expandClasses svc fuel tb heap cs = .error e := by
    intro cs
    induction cs with
    | nil => intro _ _ h; cases h
    | cons c' cs ih =>
      intro heap hS hm
      simp only [expandClasses]
      by_cases hc : c = c'
      · subst hc
        obtain ⟨e, he⟩ := class_circle (svc := svc) (fuel := fuel) hS hl
        exact ⟨e, by rw [he]⟩
      · cases e : expandClass svc fuel heap tb c' with
        | error x => exact ⟨x, rfl⟩
        | ok heap' =>
          simp only [expandClass] at e
          split at e
          · cases e
          · cases e
            exact ih _ (circular_put hS hc _) ((List.mem_cons.1 hm).resolve_left hc)
  exact key _ heap hS (by cases c <;> decide)

theorem below_two (o : Nat) (h : o < 2) : o = 0 ∨ o = 1 := by omega

/-- The hypotheses are met: two network groups that contain each other. -/
theorem C114_circle_sample : Circular (fun o => if o = 0 then .group .network "a" [.obj 1] else if o = 1 then .group .network "b" [.obj 0] else .other) .network (· < 2) := by
  intro o ho
  rcases (below_two o ho) with rfl | rfl
  · exact ⟨"a", [.obj 1], rfl, 1, by decide, by simp⟩
  · exact ⟨"b", [.obj 0], rfl, 0, by decide, by simp⟩

end Acltk.Page
