import Verif.Props.Page
import Verif.Props.Sort
import Verif.Props.Port
import Verif.Props.PageSamples
/-!
# C103: the option --sort of examples/render/static.py
-/
namespace Acltk.Page
open Acltk Acltk.Resolve

theorem keysOf_inv {α κ : Type} {key : α → Py κ} {l : List α} {ps : List (κ × α)} (h : keysOf key l = .ok ps) : ∀ x ∈ l, ∃ k, key x = .ok k := by
  induction l generalizing ps with
  | nil => intro x hx; cases hx
  | cons a t ih =>
    unfold keysOf at h
    split at h
    · cases h
    · rename_i k hk
      split at h
      · cases h
      · rename_i r hr
        intro x hx
        rcases List.mem_cons.1 hx with rfl | hx
        · exact ⟨k, hk⟩
        · exact ih hr x hx

/-- `sorted` succeeds iff every member has a key, and then the result is the members sorted. -/
theorem pySorted_keys {K : Keys} (hK : K.Total) (c : GroupClass) (l : List El) :
    (∀ out, pySorted (K.key c) (K.le c) l = .ok out → (∀ x ∈ l, ∃ k, K.key c x = .ok k) ∧ SortedBy K c l out) ∧
    ((∀ x ∈ l, ∃ k, K.key c x = .ok k) → ∃ out, pySorted (K.key c) (K.le c) l = .ok out) := by
  have main : (∀ x ∈ l, ∃ k, K.key c x = .ok k) → ∃ out, pySorted (K.key c) (K.le c) l = .ok out ∧ SortedBy K c l out := by
    intro h
    cases l with
    | nil => exact ⟨[], by simp [pySorted, keysOf], List.Perm.refl _, List.Pairwise.nil, fun _ => rfl⟩
    | cons a t =>
      obtain ⟨k0, -⟩ := h a (by simp)
      let k : El → K.κ c := fun x => match K.key c x with | .ok k => k | .error _ => k0
      have hk : ∀ x ∈ a :: t, K.key c x = .ok (k x) := by
        intro x hx
        obtain ⟨k1, e⟩ := h x hx
        simp only [k, e]
      obtain ⟨out, h1, h2, h3, h4⟩ := pySorted_stable (leB := K.le c) (le := fun a b => K.le c a b = true) (fun _ _ => Iff.rfl)
        (hK.trans c) (hK.total c) hk
      refine ⟨out, h1, h2, ?_, ?_⟩
      · refine List.Pairwise.imp_of_mem ?_ h3
        intro x y hx hy hxy
        exact ⟨k x, k y, hk x (h2.mem_iff.1 hx), hk y (h2.mem_iff.1 hy), hxy⟩
      · intro d
        cases d with
        | error e =>
          rw [List.filter_eq_nil_iff.2, List.filter_eq_nil_iff.2]
          · intro x hx; rw [hk x hx]; simp
          · intro x hx; rw [hk x (h2.mem_iff.1 hx)]; simp
        | ok d =>
          have := h4 d
          rw [List.filter_congr (q := fun x => decide (k x = d)), List.filter_congr (l := a :: t) (q := fun x => decide (k x = d)), this]
          · intro x hx; rw [hk x hx]; simp
          · intro x hx; rw [hk x (h2.mem_iff.1 hx)]; simp
  have inv : ∀ out, pySorted (K.key c) (K.le c) l = .ok out → ∀ x ∈ l, ∃ k, K.key c x = .ok k := by
    intro out h
    unfold pySorted at h
    split at h
    · cases h
    · rename_i hk; exact keysOf_inv hk
  refine ⟨fun out h => ⟨inv out h, ?_⟩, fun h => ?_⟩
  · obtain ⟨out', e, hs⟩ := main (inv out h)
    rw [h] at e
    cases e
    exact hs
  · obtain ⟨out, e, -⟩ := main h
    exact ⟨out, e⟩

theorem SortedBy.trans {K : Keys} {c : GroupClass} {l m n : List El} (h : SortedBy K c l m) (h' : SortedBy K c m n) : SortedBy K c l n :=
  ⟨h'.1.trans h.1, h'.2.1, fun d => (h'.2.2 d).trans (h.2.2 d)⟩

/-- What a loop over groups leaves, when it comes to its end. -/
theorem sortGroups_ok {K : Keys} (hK : K.Total) : ∀ {os : List Oid} {heap heap' : Oid → Obj}, sortGroups K heap os = (heap', .ok ()) →
    ∀ o, (o ∈ os → ∃ c n l out, heap o = .group c n l ∧ heap' o = .group c n out ∧ (∀ x ∈ l, ∃ k, K.key c x = .ok k) ∧ SortedBy K c l out) ∧
      (o ∉ os → heap' o = heap o) := by
  intro os
  induction os with
  | nil =>
    intro heap heap' h o
    cases h
    exact ⟨fun h => (by cases h), fun _ => rfl⟩
  | cons a t ih =>
    intro heap heap' h o
    unfold sortGroups at h
    split at h
    · cases h
    · rename_i heap1 _ hs
      obtain ⟨c, n, l, l', e1, e2, e3⟩ : ∃ c n l l', heap a = .group c n l ∧ pySorted (K.key c) (K.le c) l = .ok l' ∧
          heap1 = fun q => if q = a then .group c n l' else heap q := by
        unfold sortGroup at hs
        split at hs
        · rename_i c n l e
          split at hs
          · cases hs
          · rename_i l' e'
            cases hs
            exact ⟨c, n, l, l', e, e', rfl⟩
        · cases hs
      obtain ⟨hk, hsort⟩ := (pySorted_keys hK c l).1 l' e2
      have h1 : heap1 a = .group c n l' := by rw [e3]; simp
      have h2 : ∀ q, q ≠ a → heap1 q = heap q := by intro q hq; rw [e3]; simp [hq]
      obtain ⟨ih1, ih2⟩ := ih h o
      constructor
      · intro ho
        by_cases hoa : o = a
        · subst hoa
          by_cases ht : o ∈ t
          · obtain ⟨c', n', m, out, f1, f2, f3, f4⟩ := ih1 ht
            rw [h1] at f1
            cases f1
            exact ⟨c, n, l, out, e1, f2, hk, hsort.trans f4⟩
          · exact ⟨c, n, l, l', e1, by rw [ih2 ht, h1], hk, hsort⟩
        · obtain ⟨c', n', m, out, f1, f2, f3, f4⟩ := ih1 ((List.mem_cons.1 ho).resolve_left hoa)
          rw [h2 o hoa] at f1
          exact ⟨c', n', m, out, f1, f2, f3, f4⟩
      · intro ho
        rw [ih2 (fun h => ho (List.mem_cons_of_mem _ h)), h2 o (fun h => ho (h ▸ List.mem_cons_self))]

/-- It comes to its end if all members have keys. -/
theorem sortGroups_total {K : Keys} (hK : K.Total) : ∀ {os : List Oid} {heap : Oid → Obj},
    (∀ o ∈ os, ∃ c n l, heap o = .group c n l ∧ ∀ x ∈ l, ∃ k, K.key c x = .ok k) → ∃ heap', sortGroups K heap os = (heap', .ok ()) := by
  intro os
  induction os with
  | nil => intro heap _; exact ⟨heap, rfl⟩
  | cons a t ih =>
    intro heap h
    obtain ⟨c, n, l, e, hk⟩ := h a (by simp)
    obtain ⟨out, ho⟩ := (pySorted_keys hK c l).2 hk
    have hs : sortGroup K heap a = (fun q => if q = a then .group c n out else heap q, .ok ()) := by
      unfold sortGroup
      simp only [e, ho]
    unfold sortGroups
    rw [hs]
    apply ih
    intro o hm
    by_cases hoa : o = a
    · subst hoa
      refine ⟨c, n, out, by simp, fun x hx => hk x ?_⟩
      exact (((pySorted_keys hK c l).1 out ho).2.1.mem_iff).1 hx
    · obtain ⟨c', n', l', e', hk'⟩ := h o (List.mem_cons_of_mem _ hm)
      exact ⟨c', n', l', by simp [hoa, e'], hk'⟩

/-! ## the page -/

/-- The same objects, but for the order of the members of groups. -/
def Reordered (heap heap' : Oid → Obj) : Prop :=
  ∀ o, heap' o = heap o ∨ ∃ c n l l', heap o = .group c n l ∧ heap' o = .group c n l' ∧ l'.Perm l

theorem Reordered.symm {heap heap' : Oid → Obj} (h : Reordered heap heap') : Reordered heap' heap := by
  intro o
  rcases h o with h | ⟨c, n, l, l', h1, h2, h3⟩
  · exact Or.inl h.symm
  · exact Or.inr ⟨c, n, l', l, h2, h1, h3.symm⟩

theorem Reordered.other {heap heap' : Oid → Obj} (h : Reordered heap heap') {o : Oid} {x : Obj} (hx : heap o = x) (hg : ∀ c n l, x ≠ .group c n l) :
    heap' o = x := by
  rcases h o with h | ⟨c, n, l, l', h1, h2, h3⟩
  · rw [h, hx]
  · rw [hx] at h1; exact absurd h1 (hg c n l)

theorem Reordered.host {heap heap' : Oid → Obj} (h : Reordered heap heap') (x : El) : hostLinks heap' x = hostLinks heap x := by
  unfold hostLinks
  cases x with
  | obj o =>
    dsimp only
    rcases h o with e | ⟨c, n, l, l', h1, h2, h3⟩
    · rw [e]
      cases heap o with
      | address t =>
        cases t with
        | none => rfl
        | some t =>
          dsimp only
          rcases h t with e | ⟨c, n, l, l', h1, h2, h3⟩
          · rw [e]
          · rw [h1, h2]
      | group c _ _ => cases c <;> rfl
      | _ => rfl
    · rw [h1, h2]; cases c <;> rfl
  | _ => rfl

theorem Reordered.port {heap heap' : Oid → Obj} (h : Reordered heap heap') (x : El) : portLinks heap' x = portLinks heap x := by
  unfold portLinks
  cases x with
  | obj o =>
    dsimp only
    rcases h o with e | ⟨c, n, l, l', h1, h2, h3⟩
    · rw [e]
    · rw [h1, h2]; cases c <;> rfl
  | _ => rfl

theorem Reordered.proto {heap heap' : Oid → Obj} (h : Reordered heap heap') (x : El) : protoLinks heap' x = protoLinks heap x := by
  unfold protoLinks
  cases x with
  | obj o =>
    dsimp only
    rcases h o with e | ⟨c, n, l, l', h1, h2, h3⟩
    · rw [e]
    · rw [h1, h2]; cases c <;> rfl
  | _ => rfl

theorem Reordered.icmp {heap heap' : Oid → Obj} (h : Reordered heap heap') (x : El) : icmpLinks heap' x = icmpLinks heap x := by
  unfold icmpLinks
  cases x with
  | obj o =>
    dsimp only
    rcases h o with e | ⟨c, n, l, l', h1, h2, h3⟩
    · rw [e]
    · rw [h1, h2]; cases c <;> rfl
  | _ => rfl

theorem Reordered.option {heap heap' : Oid → Obj} (h : Reordered heap heap') (x : El) : optionLinks heap' x = optionLinks heap x := by
  unfold optionLinks
  cases x with
  | obj o =>
    dsimp only
    rcases h o with e | ⟨c, n, l, l', h1, h2, h3⟩
    · rw [e]
    · rw [h1, h2]
  | _ => rfl

theorem Reordered.isIcmp {heap heap' : Oid → Obj} (h : Reordered heap heap') (x : El) : isIcmp heap' x = isIcmp heap x := by
  unfold Page.isIcmp
  cases x with
  | obj o =>
    dsimp only
    rcases h o with e | ⟨c, n, l, l', h1, h2, h3⟩
    · rw [e]
    · rw [h1, h2]
  | _ => rfl

/-- The links of a row are the same, in another order for groups. -/
theorem Reordered.links {heap heap' : Oid → Obj} (h : Reordered heap heap') (o : Oid) : (links heap' o).Perm (links heap o) := by
  have f1 : hostLinks heap' = hostLinks heap := funext h.host
  have f2 : portLinks heap' = portLinks heap := funext h.port
  have f3 : protoLinks heap' = protoLinks heap := funext h.proto
  have f4 : icmpLinks heap' = icmpLinks heap := funext h.icmp
  have f5 : optionLinks heap' = optionLinks heap := funext h.option
  have f6 : Page.isIcmp heap' = Page.isIcmp heap := funext h.isIcmp
  unfold Page.links
  rw [f1, f2, f3, f4, f5, f6]
  rcases h o with e | ⟨c, n, l, l', h1, h2, h3⟩
  · rw [e]; 
  · rw [h1, h2]
    cases c <;> exact h3.flatMap_right _

/-- What the objects are to `resolve`, but for the order of the members of groups. -/
theorem Reordered.info {heap heap' : Oid → Obj} (h : Reordered heap heap') (o : Oid) :
    info heap' o = info heap o ∨ ∃ c l l', info heap o = .group c l ∧ info heap' o = .group c l' ∧ l'.Perm l := by
  rcases h o with e | ⟨c, n, l, l', h1, h2, h3⟩
  · refine Or.inl ?_
    unfold Page.info
    rw [e]
    cases heap o with
    | rule id p sh sp dh dp ic os =>
      dsimp only
      have e1 : Page.isTimeRange heap' = Page.isTimeRange heap := by
        funext x
        unfold isTimeRange
        cases x with
        | obj q =>
          dsimp only
          rcases h q with e | ⟨c, n, l, l', h1, h2, h3⟩
          · rw [e]
          · rw [h1, h2]
        | _ => rfl
      have e2 : Page.protocolName heap' p = Page.protocolName heap p := by
        unfold protocolName
        cases p with
        | obj q =>
          dsimp only
          rcases h q with e | ⟨c, n, l, l', h1, h2, h3⟩
          · rw [e]
          · rw [h1, h2]
        | _ => rfl
      rw [e1, e2]
    | _ => rfl
  · refine Or.inr ⟨c.cls, l, l', ?_, ?_, h3⟩
    · unfold Page.info; rw [h1]
    · unfold Page.info; rw [h2]

theorem Reordered.field {heap heap' : Oid → Obj} (h : Reordered heap heap') {o : Oid} {x : El} (hf : Field (Page.info heap) o x) :
    Field (Page.info heap') o x := by
  have key : ∀ {i}, Page.info heap o = i → (∀ c l, i ≠ .group c l) → Page.info heap' o = i := by
    intro i hi hg
    rcases h.info o with e | ⟨c, l, l', h1, h2, h3⟩
    · rw [e, hi]
    · rw [hi] at h1; exact absurd h1 (hg c l)
  cases hf with
  | protocol e => exact .protocol (key e (by intros; simp))
  | srcHost e => exact .srcHost (key e (by intros; simp))
  | dstHost e => exact .dstHost (key e (by intros; simp))
  | srcPort e => exact .srcPort (key e (by intros; simp))
  | dstPort e => exact .dstPort (key e (by intros; simp))
  | id e e' => exact .id (key e (by intros; simp)) e'
  | noId e e' => exact .noId (key e (by intros; simp)) e'
  | icmp e e' e'' => exact .icmp (key e (by intros; simp)) e' e''
  | timeRange e e' => exact .timeRange (key e (by intros; simp)) e'
  | natSrc e e' e'' => exact .natSrc (key e (by intros; simp)) e' e''
  | natDst e e' e'' => exact .natDst (key e (by intros; simp)) e' e''
  | natIface e e' => exact .natIface (key e (by intros; simp)) e'
  | natService e e' => exact .natService (key e (by intros; simp)) e'

theorem Reordered.pulls {heap heap' : Oid → Obj} (h : Reordered heap heap') {o : Oid} {x : El} (hf : Pulls (Page.info heap) o x) :
    Pulls (Page.info heap') o x := by
  rcases h.info o with e | ⟨c, l, l', h1, h2, h3⟩
  · cases hf with
    | member f g => exact .member (e.trans f) g
    | groupLabel f => exact .groupLabel (e.trans f)
    | target f => exact .target (e.trans f)
    | names f => exact .names (e.trans f)
    | label f => exact .label (e.trans f)
    | iface f => exact .iface (e.trans f)
    | ifaceLabel f => exact .ifaceLabel (e.trans f)
    | natLabel f => exact .natLabel (e.trans f)
  · cases hf with
    | member f g => rw [h1] at f; cases f; exact .member h2 (h3.mem_iff.2 g)
    | groupLabel f => rw [h1] at f; cases f; exact .groupLabel h2
    | target f | names f | label f | iface f | ifaceLabel f | natLabel f => rw [h1] at f; cases f

theorem Reordered.closure {heap heap' : Oid → Obj} (h : Reordered heap heap') {sel : List El} {x : El} (hc : Closure (Page.info heap) sel x) :
    Closure (Page.info heap') sel x := by
  induction hc with
  | selected hm => exact .selected hm
  | field hm hf => exact .field hm (h.field hf)
  | pull _ hp ih => exact .pull ih (h.pulls hp)

theorem Reordered.name {heap heap' : Oid → Obj} (h : Reordered heap heap') (o : Oid) : nameOf heap' o = nameOf heap o := by
  unfold nameOf
  rcases h o with e | ⟨c, n, l, l', h1, h2, h3⟩
  · rw [e]
  · rw [h1, h2]

theorem Reordered.refers {heap heap' : Oid → Obj} (h : Reordered heap heap') {tb : Tables} {o : Oid} (hr : Refers heap tb o) : Refers heap' tb o := by
  have key : ∀ {a o c n l}, heap a = .group c n l → El.obj o ∈ l → ∃ l', heap' a = .group c n l' ∧ El.obj o ∈ l' := by
    intro a o c n l e hm
    rcases h a with e' | ⟨c', n', m, m', h1, h2, h3⟩
    · exact ⟨l, e'.trans e, hm⟩
    · rw [e] at h1; cases h1; exact ⟨m', h2, h3.mem_iff.2 hm⟩
  induction hr with
  | field hm hf => exact .field hm (h.field hf)
  | member _ e hm ih => obtain ⟨l', e', hm'⟩ := key e hm; exact .member ih e' hm'
  | listed hd e hm => obtain ⟨l', e', hm'⟩ := key e hm; exact .listed hd e' hm'

theorem Reordered.wellFormed {heap heap' : Oid → Obj} (h : Reordered heap heap') {tb : Tables} (W : WellFormed heap tb) : WellFormed heap' tb where
  rules o ho := by
    obtain ⟨_, _, _, _, _, _, _, _, e⟩ := W.rules o ho
    exact ⟨_, _, _, _, _, _, _, _, h.other e (by intros; simp)⟩
  nat o ho := by
    obtain ⟨_, _, e⟩ := W.nat o ho
    exact ⟨_, _, h.other e (by intros; simp)⟩
  nodup := W.nodup
  table s n o hs hd := by rw [h.name]; exact W.table s n o hs hd
  ifaces n o hd := by
    obtain ⟨m, e⟩ := W.ifaces n o hd
    exact ⟨m, h.other e (by intros; simp)⟩
  members o c n l e x hx := by
    rcases h o with e' | ⟨c', n', m, m', h1, h2, h3⟩
    · exact W.members o c n l (e'.symm.trans e) x hx
    · rw [e] at h2; cases h2; exact W.members o _ _ m h1 x (h3.mem_iff.1 hx)
  noNames := W.noNames
  names o ho := by
    obtain ⟨m, e⟩ := W.names o ho
    exact ⟨m, h.other e (by intros; simp)⟩
  listed o s n hr hn := W.listed o s n (h.symm.refers hr) (by rw [← h.name]; exact hn)
  target o t hr e := W.target o t (h.symm.refers hr) (h.symm.other e (by intros; simp))
  fresh o hr := W.fresh o (h.symm.refers hr)
  addresses o n l e x hx := by rw [h.host]; exact W.addresses o n l (h.symm.other e (by intros; simp)) x hx

theorem Reordered.completes {heap heap' : Oid → Obj} (h : Reordered heap heap') {tb : Tables} {chosen : List Oid} {sel : Sel}
    (hc : Completes heap tb chosen sel) : Completes heap' tb chosen sel :=
  ⟨hc.1, fun r hr x => (hc.2 r hr x).trans ⟨h.closure, h.symm.closure⟩⟩

theorem Reordered.entries {heap heap' : Oid → Obj} (h : Reordered heap heap') (lower : String → String) (tb : Tables) (sel : Sel) (sns : Bool) (s : Sect) :
    entries lower heap' tb sel sns s = entries lower heap tb sel sns s := by
  unfold Page.entries nameSection
  have : nameItem heap' sel = nameItem heap sel := by
    funext o
    unfold nameItem
    rcases h o with e | ⟨c, n, l, l', h1, h2, h3⟩
    · rw [e]
    · rw [h1, h2]
  rw [this]

theorem mem_dVals {d : Dict String Oid} (hn : (dKeys d).Nodup) {o : Oid} : o ∈ dVals d ↔ ∃ n, dGet d n = some o := by
  induction d with
  | nil => simp [dVals, dGet]
  | cons p t ih =>
    obtain ⟨k, v⟩ := p
    have hk : k ∉ dKeys t := (List.nodup_cons.1 hn).1
    have ht := ih (List.nodup_cons.1 hn).2
    show o ∈ v :: dVals t ↔ _
    rw [List.mem_cons, ht]
    constructor
    · rintro (rfl | ⟨n, h⟩)
      · exact ⟨k, by simp [dGet]⟩
      · refine ⟨n, ?_⟩
        have : k ≠ n := by
          rintro rfl
          exact hk ((dGet_isSome_iff t k).1 (by rw [h]; rfl))
        simp [dGet, this, h]
    · rintro ⟨n, h⟩
      unfold dGet at h
      split at h
      · cases h; exact Or.inl rfl
      · exact Or.inr ⟨n, h⟩

/-- What `--sort` goes through. -/
theorem mem_toSort {heap : Oid → Obj} {tb : Tables} (W : WellFormed heap tb) {o : Oid} :
    o ∈ ([GroupClass.network, .service, .port, .protocol].flatMap fun c => dVals (tb.table (.group c))) ↔ ToSort tb o := by
  rw [List.mem_flatMap]
  constructor
  · rintro ⟨c, hc, ho⟩
    obtain ⟨n, hn⟩ := (mem_dVals (W.nodup _)).1 ho
    exact ⟨c, n, by rintro rfl; exact absurd hc (by decide), hn⟩
  · rintro ⟨c, n, hc, hn⟩
    refine ⟨c, ?_, (mem_dVals (W.nodup _)).2 ⟨n, hn⟩⟩
    cases c <;> first | decide | exact absurd rfl hc

theorem toSort_group {heap : Oid → Obj} {tb : Tables} (W : WellFormed heap tb) {o : Oid} (h : ToSort tb o) : ∃ c n l, heap o = .group c n l ∧ c ≠ .icmp := by
  obtain ⟨c, n, hc, hn⟩ := h
  have := W.table (.group c) n o (by simp) hn
  unfold nameOf at this
  split at this <;> cases this
  exact ⟨_, _, _, by assumption, hc⟩

/-- **C103.** `--sort` succeeds iff every member of the network, service, port and protocol groups has a sort key. -/
theorem C103_succeeds_iff (K : Keys) (hK : K.Total) (heap : Oid → Obj) (tb : Tables) (W : WellFormed heap tb) :
    (∃ heap', sortAll K heap tb = (heap', .ok ())) ↔
      ∀ o, ToSort tb o → ∀ c n l, heap o = .group c n l → ∀ x ∈ l, ∃ k, K.key c x = .ok k := by
  constructor
  · rintro ⟨heap', h⟩ o ho c n l e
    obtain ⟨c', n', l', out, e', -, hk, -⟩ := (sortGroups_ok hK h o).1 ((mem_toSort W).2 ho)
    rw [e] at e'
    cases e'
    exact hk
  · intro h
    refine sortGroups_total hK fun o ho => ?_
    have ho := (mem_toSort W).1 ho
    obtain ⟨c, n, l, e, -⟩ := toSort_group W ho
    exact ⟨c, n, l, e, h o ho c n l e⟩

/-- **C103.** `--sort` sorts the members of each network, service, port and protocol group of the configuration by key and changes nothing else
(ICMP groups, groups that are not listed any more); so the page has the same sections and entries, the same objects are selected, and each row has
the same links, those of groups in the new order. -/
theorem C103_sorted (K : Keys) (hK : K.Total) (heap heap' : Oid → Obj) (tb : Tables) (W : WellFormed heap tb)
    (h : sortAll K heap tb = (heap', .ok ())) :
    (∀ o, ToSort tb o → ∃ c n l out, heap o = .group c n l ∧ heap' o = .group c n out ∧ SortedBy K c l out) ∧
    (∀ o, ¬ ToSort tb o → heap' o = heap o) ∧
    WellFormed heap' tb ∧
    (∀ chosen sel, Completes heap' tb chosen sel ↔ Completes heap tb chosen sel) ∧
    (∀ lower sel sns s, entries lower heap' tb sel sns s = entries lower heap tb sel sns s) ∧
    ∀ o, (links heap' o).Perm (links heap o) := by
  have h1 : ∀ o, ToSort tb o → ∃ c n l out, heap o = .group c n l ∧ heap' o = .group c n out ∧ SortedBy K c l out := by
    intro o ho
    obtain ⟨c, n, l, out, e, e', -, hs⟩ := (sortGroups_ok hK h o).1 ((mem_toSort W).2 ho)
    exact ⟨c, n, l, out, e, e', hs⟩
  have h2 : ∀ o, ¬ ToSort tb o → heap' o = heap o := fun o ho => (sortGroups_ok hK h o).2 fun h => ho ((mem_toSort W).1 h)
  have R : Reordered heap heap' := by
    intro o
    by_cases ho : ToSort tb o
    · obtain ⟨c, n, l, out, e, e', hs⟩ := h1 o ho
      exact Or.inr ⟨c, n, l, out, e, e', hs.1⟩
    · exact Or.inl (h2 o ho)
  exact ⟨h1, h2, R.wellFormed W, fun chosen sel => ⟨R.symm.completes, R.completes⟩, fun lower => R.entries lower tb, R.links⟩

/-- The keys of the code are totally ordered. -/
theorem classKeys_total (getserv : String → Option Nat) (M : Members) : (classKeys getserv M).Total where
  trans := by
    intro c a b d
    cases c with
    | service => intro h1 h2; exact (svcLe_iff _ _).2 (svcLe_trans a b d ((svcLe_iff _ _).1 h1) ((svcLe_iff _ _).1 h2))
    | _ => intro h1 h2; exact (intLe_iff _ _).2 (Int.le_trans ((intLe_iff _ _).1 h1) ((intLe_iff _ _).1 h2))
  total := by
    intro c a b
    cases c with
    | service => exact (svcLe_total a b).imp (svcLe_iff _ _).2 (svcLe_iff _ _).2
    | _ => exact (Int.le_total a b).imp (intLe_iff _ _).2 (intLe_iff _ _).2

/-- **C103 is violated**: a port group with a member `port-object eq` (which has lost its number, C53) makes `--sort` raise, whatever the service table
of the system. -/
theorem C103_violated (getserv : String → Option Nat) (M : Members) (heap : Oid → Obj) (tb : Tables) (W : WellFormed heap tb)
    (g m : Oid) (n n' p : String) (l : List El) (hg : dGet (tb.table (.group .port)) n = some g) (he : heap g = .group .port n' l) (hm : .obj m ∈ l)
    (x : PortLeaf) (hx : portGroupObject (portObjectEqAst p) = .ok x) (hp : M.port m = .leaf x) :
    ∃ heap' e, sortAll (classKeys getserv M) heap tb = (heap', .error e) := by
  have hport : M.port m = .leaf (.port ⟨some "eq", none⟩) := by
    rw [(C53_violated p p).1] at hx
    cases hx
    exact hp
  cases h : sortAll (classKeys getserv M) heap tb with
  | mk heap' r =>
    cases r with
    | error e => exact ⟨heap', e, rfl⟩
    | ok u =>
      obtain ⟨k, hk⟩ := (C103_succeeds_iff (classKeys getserv M) (classKeys_total getserv M) heap tb W).1 ⟨heap', h⟩ g ⟨.port, n, by decide, hg⟩
        .port n' l he (.obj m) hm
      have : (classKeys getserv M).key .port (.obj m) = .error .type := by
        show portKey getserv (M.port m) = _
        rw [hport]
        rfl
      rw [this] at hk
      cases hk

/-- The members of the groups of the sample. -/
def sampleMembers (lost : Bool) : Members where
  net := fun o => if o = 3 then .host ⟨.v4, 1⟩ else .obj "srv" []
  port := fun _ => if lost then .leaf (.port ⟨some "eq", none⟩) else .leaf (.range "80" "90")
  svc := fun _ => .group "" []
  proto := fun _ => .leaf "tcp"


theorem sortGroup_eq {K : Keys} {heap : Oid → Obj} {o : Oid} {c : GroupClass} {n : String} {l l' : List El} (h : heap o = .group c n l)
    (hs : pySorted (K.key c) (K.le c) l = .ok l') : sortGroup K heap o = (fun q => if q = o then .group c n l' else heap q, .ok ()) := by
  unfold sortGroup
  simp only [h, hs]

theorem sample_net (b : Bool) (g : String → Option Nat) :
    pySorted ((classKeys g (sampleMembers b)).key .network) ((classKeys g (sampleMembers b)).le .network) [.obj 3, .obj 6] = .ok [.obj 6, .obj 3] := by
  have h1 : (classKeys g (sampleMembers b)).key .network (.obj 3) = .ok (1 : Int) := rfl
  have h2 : (classKeys g (sampleMembers b)).key .network (.obj 6) = .ok (-970 : Int) := by
    show Except.ok (nstrsum "srv") = Except.ok (-970 : Int)
    have : nstrsum "srv" = -970 := by decide +kernel
    rw [this]
  unfold pySorted keysOf keysOf keysOf
  rw [h1, h2]
  have h3 : (classKeys g (sampleMembers b)).le .network (1 : Int) (-970 : Int) = false := rfl
  simp [List.mergeSort, List.MergeSort.Internal.splitInTwo, List.splitAt, List.splitAt.go, List.merge, h3]

/-- The hypotheses of `C103_sorted` and of `C103_violated` are met: with the range the network group is sorted (the object comes first), with the port
without a number `--sort` raises — when the network group is sorted already. -/
theorem C103_sample (g : String → Option Nat) :
    (∃ heap', sortAll (classKeys g (sampleMembers false)) sampleHeap sampleTables = (heap', .ok ()) ∧
      heap' 2 = .group .network "g" [.obj 6, .obj 3] ∧ heap' 4 = .group .port "web" [.obj 7]) ∧
    (∃ heap', sortAll (classKeys g (sampleMembers true)) sampleHeap sampleTables = (heap', .error .type) ∧
      heap' 2 = .group .network "g" [.obj 6, .obj 3]) := by
  have hn : ∀ b, sortGroup (classKeys g (sampleMembers b)) sampleHeap 2 =
      (fun q => if q = 2 then .group .network "g" [.obj 6, .obj 3] else sampleHeap q, .ok ()) := by
    intro b
    exact sortGroup_eq rfl (sample_net b g)
  have hp : pySorted ((classKeys g (sampleMembers false)).key .port) ((classKeys g (sampleMembers false)).le .port) [.obj 7] = .ok [.obj 7] := by
    have : ∃ k : Int, (classKeys g (sampleMembers false)).key .port (.obj 7) = .ok k := ⟨_, rfl⟩
    obtain ⟨k, hk⟩ := this
    unfold pySorted keysOf keysOf
    rw [hk]
    simp
  constructor
  · refine ⟨fun q => if q = 4 then .group .port "web" [.obj 7] else if q = 2 then .group .network "g" [.obj 6, .obj 3] else sampleHeap q, ?_, rfl, rfl⟩
    show sortGroups _ _ [2, 4] = _
    unfold sortGroups
    rw [hn]
    unfold sortGroups
    dsimp only
    rw [sortGroup_eq (heap := fun q => if q = 2 then .group .network "g" [.obj 6, .obj 3] else sampleHeap q) (o := 4) (c := .port) (n := "web")
      (l := [.obj 7]) rfl hp]
    rfl
  · refine ⟨fun q => if q = 2 then .group .network "g" [.obj 6, .obj 3] else sampleHeap q, ?_, rfl⟩
    show sortGroups _ _ [2, 4] = _
    unfold sortGroups
    rw [hn]
    rfl

end Acltk.Page
