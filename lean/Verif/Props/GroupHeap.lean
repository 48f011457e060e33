import Verif.Model.GroupHeap
import Verif.Model.Group
/-!
# C25: expanding all groups of a configuration in place
-/
namespace Acltk

/-- `l` is the depth-first list of the non-group members below `ms` in the given object graph. -/
inductive HeapLeaves {α : Type} (heap : Heap α) : List (Mem α) → List α → Prop
  | nil : HeapLeaves heap [] []
  | item {a t l} : HeapLeaves heap t l → HeapLeaves heap (.item a :: t) (a :: l)
  | ref {g t l l'} : HeapLeaves heap (heap g) l → HeapLeaves heap t l' → HeapLeaves heap (.ref g :: t) (l ++ l')

/-- The group nesting is acyclic, with nesting depth below `n`. -/
def Acyclic {α : Type} (heap : Heap α) (rank : Nat → Nat) : Prop :=
  ∀ g g', Mem.ref g' ∈ heap g → rank g' < rank g

theorem heapExpand_ok {α : Type} {heap : Heap α} {rank : Nat → Nat} (h : Acyclic heap rank) :
    ∀ (n : Nat) (ms : List (Mem α)), (∀ g, Mem.ref g ∈ ms → rank g < n) →
      ∃ l, HeapLeaves heap ms l ∧ ∀ fuel, n < fuel → heapExpand heap fuel ms = .ok l := by
  intro n
  induction n with
  | zero =>
    intro ms
    induction ms with
    | nil =>
      intro _
      refine ⟨[], .nil, fun fuel hf => ?_⟩
      obtain ⟨k, rfl⟩ : ∃ k, fuel = k + 1 := ⟨fuel - 1, by omega⟩
      simp [heapExpand]
    | cons m t iht =>
      intro hr
      cases m with
      | ref g => exact absurd (hr g (by simp)) (by omega)
      | item a =>
        obtain ⟨l, h1, h2⟩ := iht (fun g hg => hr g (by simp [hg]))
        refine ⟨a :: l, .item h1, fun fuel hf => ?_⟩
        obtain ⟨k, rfl⟩ : ∃ k, fuel = k + 1 := ⟨fuel - 1, by omega⟩
        rw [heapExpand, h2 (k + 1) hf]
  | succ n ih =>
    intro ms
    induction ms with
    | nil =>
      intro _
      refine ⟨[], .nil, fun fuel hf => ?_⟩
      obtain ⟨k, rfl⟩ : ∃ k, fuel = k + 1 := ⟨fuel - 1, by omega⟩
      simp [heapExpand]
    | cons m t iht =>
      intro hr
      obtain ⟨l, h1, h2⟩ := iht (fun g hg => hr g (by simp [hg]))
      cases m with
      | ref g =>
        have hg := hr g (by simp)
        obtain ⟨l0, h3, h4⟩ := ih (heap g) (fun g' hg' => by have := h g g' hg'; omega)
        refine ⟨l0 ++ l, .ref h3 h1, fun fuel hf => ?_⟩
        obtain ⟨k, rfl⟩ : ∃ k, fuel = k + 1 := ⟨fuel - 1, by omega⟩
        rw [heapExpand, h4 k (by omega), h2 (k + 1) hf]
      | item a =>
        refine ⟨a :: l, .item h1, fun fuel hf => ?_⟩
        obtain ⟨k, rfl⟩ : ∃ k, fuel = k + 1 := ⟨fuel - 1, by omega⟩
        rw [heapExpand, h2 (k + 1) hf]

theorem HeapLeaves.det {α : Type} {heap : Heap α} {ms : List (Mem α)} {l l' : List α}
    (h : HeapLeaves heap ms l) (h' : HeapLeaves heap ms l') : l = l' := by
  induction h generalizing l' with
  | nil => cases h'; rfl
  | item _ ih => cases h' with | item h2 => rw [ih h2]
  | ref _ _ ih1 ih2 => cases h' with | ref h2 h3 => rw [ih1 h2, ih2 h3]

theorem heapLeaves_items {α : Type} (heap : Heap α) (l : List α) : HeapLeaves heap (l.map .item) l := by
  induction l with
  | nil => exact .nil
  | cons a t ih => exact .item ih

/-- Leaves after replacing some groups by their (finished) leaves. `done` are the groups replaced. -/
def Partial {α : Type} (fin : α → List α) (h0 heap : Heap α) (done : Nat → Prop) : Prop :=
  ∀ g, (done g → ∃ l, HeapLeaves h0 (h0 g) l ∧ heap g = (l.flatMap fin).map .item) ∧ (¬ done g → heap g = h0 g)

/-- What replaces an item is left alone by a second replacement. -/
def Good {α : Type} (fin : α → List α) (a : α) : Prop := ∀ b ∈ fin a, fin b = [b]

theorem flatMap_idem {α : Type} {fin : α → List α} {l : List α} (h : ∀ a ∈ l, Good fin a) :
    (l.flatMap fin).flatMap fin = l.flatMap fin := by
  induction l with
  | nil => rfl
  | cons a t ih =>
    simp only [List.flatMap_cons, List.flatMap_append, ih (fun x hx => h x (by simp [hx]))]
    congr 1
    have : ∀ m : List α, (∀ b ∈ m, fin b = [b]) → m.flatMap fin = m := by
      intro m
      induction m with
      | nil => intro _; rfl
      | cons b u ihu => intro hb; simp [hb b (by simp), ihu (fun c hc => hb c (by simp [hc]))]
    exact this _ (h a (by simp))

theorem HeapLeaves.all {α : Type} {heap : Heap α} {P : α → Prop} (hP : ∀ g a, Mem.item a ∈ heap g → P a)
    {ms : List (Mem α)} {l : List α} (h : HeapLeaves heap ms l) (hm : ∀ a, Mem.item a ∈ ms → P a) : ∀ a ∈ l, P a := by
  induction h with
  | nil => simp
  | item _ ih =>
    intro b hb
    rcases List.mem_cons.1 hb with rfl | hb
    · exact hm _ (by simp)
    · exact ih (fun x hx => hm x (by simp [hx])) b hb
  | ref _ _ ih1 ih2 =>
    intro b hb
    rcases List.mem_append.1 hb with hb | hb
    · exact ih1 (hP _) b hb
    · exact ih2 (fun x hx => hm x (by simp [hx])) b hb

theorem partial_leaves {α : Type} {fin : α → List α} 
    {h0 heap : Heap α} (hfin : ∀ g a, Mem.item a ∈ h0 g → Good fin a)
    {done : Nat → Prop} (hp : Partial fin h0 heap done) {ms : List (Mem α)} {l : List α}
    (h : HeapLeaves h0 ms l) : ∃ l', HeapLeaves heap ms l' ∧ l'.flatMap fin = l.flatMap fin := by
  induction h with
  | nil => exact ⟨[], .nil, rfl⟩
  | item _ ih =>
    obtain ⟨l', h1, h2⟩ := ih
    exact ⟨_, .item h1, by simp [h2]⟩
  | @ref g t l0 l1 h0' _ ih1 ih2 =>
    obtain ⟨l2, h3, h4⟩ := ih2
    by_cases hd : done g
    · obtain ⟨lg, h5, h6⟩ := (hp g).1 hd
      have : lg = l0 := h5.det h0'
      subst this
      refine ⟨_, .ref (by rw [h6]; exact heapLeaves_items heap _) h3, ?_⟩
      have hg : ∀ a ∈ lg, Good fin a := h5.all hfin (hfin g)
      simp [h4, flatMap_idem hg]
    · obtain ⟨l', h1, h2⟩ := ih1
      refine ⟨_, .ref (by rw [(hp g).2 hd]; exact h1) h3, ?_⟩
      simp [h2, h4]

theorem acyclic_partial {α : Type} {fin : α → List α} {h0 heap : Heap α} {done : Nat → Prop}
    (hp : Partial fin h0 heap done) {rank : Nat → Nat} (ha : Acyclic h0 rank) : Acyclic heap rank := by
  intro g g' hg
  by_cases hd : done g
  · obtain ⟨l, _, h2⟩ := (hp g).1 hd
    rw [h2] at hg; simp at hg
  · rw [(hp g).2 hd] at hg; exact ha g g' hg

theorem expandAll_ok {α : Type} (fin : α → List α) 
    {h0 : Heap α} (hfin : ∀ g a, Mem.item a ∈ h0 g → Good fin a) {rank : Nat → Nat} (ha : Acyclic h0 rank) (fuel : Nat) :
    ∀ (order : List Nat) (heap : Heap α) (done : Nat → Prop), (∀ g ∈ order, rank g < fuel) →
      Partial fin h0 heap done →
      ∃ heap', expandAll fin fuel heap order = (heap', .ok ()) ∧
        Partial fin h0 heap' (fun g => done g ∨ g ∈ order) := by
  intro order
  induction order with
  | nil => intro heap done _ hp; exact ⟨heap, rfl, by simpa using hp⟩
  | cons g gs ih =>
    intro heap done hf hp
    have ha' := acyclic_partial hp ha
    obtain ⟨l, h1, h2⟩ := heapExpand_ok ha' (rank g) (heap g) (fun g' hg' => ha' g g' hg')
    obtain ⟨l0, h3, _⟩ := heapExpand_ok ha (rank g) (h0 g) (fun g' hg' => ha g g' hg')
    have hfl : l.flatMap fin = l0.flatMap fin := by
      by_cases hd : done g
      · obtain ⟨lg, h5, h6⟩ := (hp g).1 hd
        have := h5.det h3
        subst this
        have : l = lg.flatMap fin := h1.det (by rw [h6]; exact heapLeaves_items heap _)
        subst this
        exact flatMap_idem (h5.all hfin (hfin g))
      · obtain ⟨l', h5, h6⟩ := partial_leaves hfin hp h3
        have : l = l' := h1.det (by rw [(hp g).2 hd]; exact h5)
        rw [this, h6]
    have hstep : expandGroup fin fuel heap g = (fun i => if i = g then (l.flatMap fin).map .item else heap i, .ok ()) := by
      unfold expandGroup
      rw [h2 fuel (hf g (by simp))]
    have hp' : Partial fin h0 (fun i => if i = g then (l.flatMap fin).map .item else heap i) (fun i => done i ∨ i = g) := by
      intro i
      by_cases hi : i = g
      · subst hi
        refine ⟨fun _ => ⟨l0, h3, by simp [hfl]⟩, fun hn => absurd (.inr rfl) hn⟩
      · refine ⟨fun hd => ?_, fun hn => ?_⟩
        · rcases hd with hd | hd
          · obtain ⟨l1, a1, a2⟩ := (hp i).1 hd
            exact ⟨l1, a1, by simp [hi, a2]⟩
          · exact absurd hd hi
        · simp only [hi, if_false]
          exact (hp i).2 (fun hd => hn (.inl hd))
    obtain ⟨heap', e1, e2⟩ := ih _ _ (fun x hx => hf x (by simp [hx])) hp'
    refine ⟨heap', ?_, ?_⟩
    · simp only [expandAll, hstep]; exact e1
    · have : (fun g' => (done g' ∨ g' = g) ∨ g' ∈ gs) = (fun g' => done g' ∨ g' ∈ g :: gs) := by
        funext x; simp [or_assoc]
      rw [this] at e2; exact e2

/-- **C25** Expanding the groups of an acyclic configuration in place, one after the other in any
order (repetitions allowed), never raises, and gives every visited group exactly its leaves in the
original configuration (with network objects replaced by addresses, service objects by services);
groups that are not visited keep their members. -/
theorem C25_every_group_gets_its_leaves {α : Type} (fin : α → List α)
    (heap : Heap α) (hfin : ∀ g a, Mem.item a ∈ heap g → ∀ b ∈ fin a, fin b = [b]) (rank : Nat → Nat) (ha : Acyclic heap rank) (fuel : Nat) (order : List Nat)
    (hf : ∀ g ∈ order, rank g < fuel) :
    ∃ heap', expandAll fin fuel heap order = (heap', .ok ()) ∧
      (∀ g ∈ order, ∃ l, HeapLeaves heap (heap g) l ∧ heap' g = (l.flatMap fin).map .item) ∧
      (∀ g, g ∉ order → heap' g = heap g) := by
  obtain ⟨heap', h1, h2⟩ := expandAll_ok fin hfin ha fuel order heap (fun _ => False) hf
    (fun g => ⟨fun h => h.elim, fun _ => rfl⟩)
  refine ⟨heap', h1, fun g hg => (h2 g).1 (.inr hg), fun g hg => (h2 g).2 ?_⟩
  rintro (h | h)
  · exact h
  · exact hg h

/-- **C25** Two visiting orders of the same groups end in the same configuration. -/
theorem C25_order_irrelevant {α : Type} (fin : α → List α)
    (heap : Heap α) (hfin : ∀ g a, Mem.item a ∈ heap g → ∀ b ∈ fin a, fin b = [b]) (rank : Nat → Nat) (ha : Acyclic heap rank) (fuel : Nat) (order order' : List Nat)
    (hf : ∀ g ∈ order, rank g < fuel) (hsame : ∀ g, g ∈ order ↔ g ∈ order') :
    expandAll fin fuel heap order = expandAll fin fuel heap order' := by
  obtain ⟨h1, a1, a2, a3⟩ := C25_every_group_gets_its_leaves fin heap hfin rank ha fuel order hf
  obtain ⟨h2, b1, b2, b3⟩ := C25_every_group_gets_its_leaves fin heap hfin rank ha fuel order'
    (fun g hg => hf g ((hsame g).2 hg))
  rw [a1, b1]
  congr 1
  funext g
  by_cases hg : g ∈ order
  · obtain ⟨l, c1, c2⟩ := a2 g hg
    obtain ⟨l', d1, d2⟩ := b2 g ((hsame g).1 hg)
    rw [c2, d2, c1.det d1]
  · rw [a3 g hg, b3 g (fun h => hg ((hsame g).2 h))]

/-- A group that contains itself: expansion runs out of stack whatever the limit is, and changes
nothing (such groups cannot be written in a configuration file, only built through the API). -/
theorem C25_cyclic_group_raises {α : Type} (fin : α → List α) (fuel : Nat) :
    let heap : Heap α := fun _ => [.ref 0]
    expandGroup fin fuel heap 0 = (heap, .error .recursion) := by
  have : ∀ fuel, heapExpand (fun _ => [Mem.ref 0] : Heap α) fuel [.ref 0] = .error .recursion := by
    intro fuel
    induction fuel with
    | zero => simp [heapExpand]
    | succ n ih => rw [heapExpand, ih]
  simp only [expandGroup, this]

/-- A configuration of three network groups that meets the hypotheses: group 2, holding a network
object, is a member of both 0 and 1. -/
def sampleHeap : Heap Host := fun g =>
  if g = 0 then [.ref 2, .item .any] else if g = 1 then [.item (.host ⟨.v4, 1⟩), .ref 2]
  else [.item (.obj "o" [.host ⟨.v4, 2⟩, .host ⟨.v4, 3⟩])]

example : Acyclic sampleHeap (fun g => if g = 2 then 0 else 1) ∧
    (∀ g a, Mem.item a ∈ sampleHeap g → ∀ b ∈ finNet a, finNet b = [b]) := by
  constructor
  · intro g g' h
    simp only [sampleHeap] at h ⊢
    split at h
    · simp at h; subst h; subst_vars; decide
    · split at h
      · simp at h; subst h; subst_vars; decide
      · simp at h
  · intro g a h
    simp only [sampleHeap] at h
    split at h
    · simp at h; subst h; intro b hb; simp [finNet] at hb; subst hb; rfl
    · split at h
      · simp at h; subst h; intro b hb; simp [finNet] at hb; subst hb; rfl
      · simp at h; subst h; intro b hb; simp [finNet] at hb; rcases hb with rfl | rfl <;> rfl

example : (expandAll finNet 3 sampleHeap [0, 1, 2]).1 1 =
    [.item (.host ⟨.v4, 1⟩), .item (.host ⟨.v4, 2⟩), .item (.host ⟨.v4, 3⟩)] := by
  simp [expandAll, expandGroup, heapExpand, sampleHeap, finNet]

end Acltk
