import Verif.Spec.SortSpec
import Verif.Props.Collapse
/-!
# C28, C29, C30: sorting groups
-/
namespace Acltk

/-! ## `sorted` -/

theorem keysOf_ok {α κ : Type} {key : α → Py κ} {k : α → κ} : ∀ {l : List α},
    (∀ x ∈ l, key x = .ok (k x)) → keysOf key l = .ok (l.map (fun x => (k x, x))) := by
  intro l
  induction l with
  | nil => intro _; rfl
  | cons x t ih =>
    intro h
    simp [keysOf, h x (by simp), ih (fun y hy => h y (by simp [hy]))]

/-- `sorted` with a key that never raises returns the stable sort. -/
theorem pySorted_stable {α κ : Type} [DecidableEq κ] {key : α → Py κ} {leB : κ → κ → Bool}
    {le : κ → κ → Prop} (hle : ∀ a b, leB a b = true ↔ le a b)
    (trans : ∀ a b c, le a b → le b c → le a c) (total : ∀ a b, le a b ∨ le b a)
    {k : α → κ} {l : List α} (h : ∀ x ∈ l, key x = .ok (k x)) :
    ∃ out, pySorted key leB l = .ok out ∧ StableSort le k l out := by
  let f : α → κ × α := fun x => (k x, x)
  let leP : κ × α → κ × α → Bool := fun p q => leB p.1 q.1
  have htr : ∀ a b c : κ × α, leP a b = true → leP b c = true → leP a c = true := by
    intro a b c h1 h2
    exact (hle _ _).2 (trans _ _ _ ((hle _ _).1 h1) ((hle _ _).1 h2))
  have htot : ∀ a b : κ × α, (leP a b || leP b a) = true := by
    intro a b
    rcases total a.1 b.1 with h | h
    · simp [leP, (hle _ _).2 h]
    · simp [leP, (hle _ _).2 h]
  have hperm := List.mergeSort_perm (l.map f) leP
  have hmem : ∀ p ∈ (l.map f).mergeSort leP, p.1 = k p.2 := by
    intro p hp
    have := hperm.mem_iff.1 hp
    simp only [List.mem_map] at this
    obtain ⟨x, _, rfl⟩ := this
    rfl
  have hfix : ∀ (m : List (κ × α)), (∀ p ∈ m, p.1 = k p.2) → (m.map (·.2)).map f = m := by
    intro m hm
    rw [List.map_map]
    conv => rhs; rw [← List.map_id m]
    apply List.map_congr_left
    intro p hp
    have := hm p hp
    simp [f, ← this]
  refine ⟨((l.map f).mergeSort leP).map (·.2), ?_, ?_, ?_, ?_⟩
  · unfold pySorted
    rw [keysOf_ok h]
  · have := hperm.map (·.2)
    rw [List.map_map] at this
    have e : l.map ((fun x : κ × α => x.2) ∘ f) = l := by simp [f, Function.comp_def]
    rw [e] at this
    exact this
  · rw [List.pairwise_map]
    have := List.pairwise_mergeSort htr htot (l.map f)
    refine List.Pairwise.imp_of_mem ?_ this
    intro a b ha hb hab
    rw [← hmem a ha, ← hmem b hb]
    exact (hle _ _).1 hab
  · intro c
    -- work on the decorated lists
    have hdec : ∀ m : List (κ × α), (∀ p ∈ m, p.1 = k p.2) →
        (m.map (·.2)).filter (fun x => decide (k x = c)) = (m.filter (fun p => decide (p.1 = c))).map (·.2) := by
      intro m hm
      rw [List.filter_map]
      congr 1
      apply List.filter_congr
      intro p hp
      simp [hm p hp]
    have hl : (l.map f).map (·.2) = l := by simp [f, Function.comp_def]
    rw [hdec _ hmem]
    conv => rhs; rw [← hl]
    rw [hdec (l.map f) (by simp [f])]
    congr 1
    have hsub : List.Sublist ((l.map f).filter (fun p => decide (p.1 = c))) ((l.map f).mergeSort leP) := by
      refine List.sublist_mergeSort htr htot ?_ List.filter_sublist
      rw [List.pairwise_iff_forall_sublist]
      intro a b hab
      have ha : a ∈ (l.map f).filter (fun p => decide (p.1 = c)) := hab.subset (by simp)
      have hb : b ∈ (l.map f).filter (fun p => decide (p.1 = c)) := hab.subset (by simp)
      simp only [List.mem_filter, decide_eq_true_eq] at ha hb
      refine (hle _ _).2 ?_
      rw [ha.2, hb.2]
      rcases total c c with h | h <;> exact h
    have hsub2 := hsub.filter (fun p => decide (p.1 = c))
    rw [List.filter_filter] at hsub2
    simp only [Bool.and_self] at hsub2
    refine (hsub2.eq_of_length ?_).symm
    exact (hperm.filter _).length_eq.symm

/-- The stable sort is unique. -/
theorem stableSort_unique {α κ : Type} [DecidableEq κ] {le : κ → κ → Prop}
    (antisymm : ∀ a b, le a b → le b a → a = b)
    {k : α → κ} : ∀ {l o1 o2 : List α}, StableSort le k l o1 → StableSort le k l o2 → o1 = o2 := by
  have main : ∀ (o1 o2 : List α), o1.Pairwise (fun x y => le (k x) (k y)) → o2.Pairwise (fun x y => le (k x) (k y)) →
      (∀ c, o1.filter (fun x => decide (k x = c)) = o2.filter (fun x => decide (k x = c))) → o1 = o2 := by
    intro o1
    induction o1 with
    | nil =>
      intro o2 _ _ h
      cases o2 with
      | nil => rfl
      | cons y t => have := h (k y); simp at this
    | cons x s ih =>
      intro o2 h1 h2 h
      cases o2 with
      | nil => have := h (k x); simp at this
      | cons y t =>
        simp only [List.pairwise_cons] at h1 h2
        have hx : x ∈ (y :: t).filter (fun z => decide (k z = k x)) := by rw [← h]; simp
        have hy : y ∈ (x :: s).filter (fun z => decide (k z = k y)) := by rw [h]; simp
        simp only [List.mem_filter, List.mem_cons] at hx hy
        have hkk : k x = k y := by
          rcases hx.1 with e | hx'
          · rw [e]
          · rcases hy.1 with e | hy'
            · rw [e]
            · exact antisymm _ _ (h1.1 y hy') (h2.1 x hx')
        have hk := h (k x)
        simp [hkk] at hk
        obtain ⟨e, _⟩ := hk
        subst e
        congr 1
        refine ih t h1.2 h2.2 fun c => ?_
        have := h c
        simp only [List.filter_cons] at this
        split at this
        · simpa using this
        · exact this
  intro l o1 o2 h1 h2
  exact main o1 o2 h1.2.1 h2.2.1 (fun c => by rw [h1.2.2, h2.2.2])

theorem StableSort.self {α κ : Type} [DecidableEq κ] {le : κ → κ → Prop} {k : α → κ} {l out : List α}
    (h : StableSort le k l out) : StableSort le k out out :=
  ⟨List.Perm.refl _, h.2.1, fun _ => rfl⟩

/-- An exception from a key function: `sorted` raises it. -/
theorem pySorted_error {α κ : Type} {key : α → Py κ} {leB : κ → κ → Bool} {l : List α}
    {x : α} {e : PyErr} (hx : x ∈ l) (he : key x = .error e) : ∃ e', pySorted key leB l = .error e' := by
  have : ∃ e', keysOf key l = .error e' := by
    induction l with
    | nil => cases hx
    | cons y t ih =>
      simp only [keysOf]
      cases hy : key y with
      | error e' => exact ⟨e', rfl⟩
      | ok c =>
        rcases List.mem_cons.1 hx with rfl | h
        · rw [he] at hy; cases hy
        · obtain ⟨e', h'⟩ := ih h
          exact ⟨e', by simp [h']⟩
  obtain ⟨e', h⟩ := this
  exact ⟨e', by simp [pySorted, h]⟩

/-! ## the keys -/

theorem nstrsumFrom_eq : ∀ (l : List Char) (i : Nat),
    nstrsumFrom i l = ((l.zipIdx i).map (fun p => ((p.1.toNat : Int) - 255) * 2 ^ p.2)).sum := by
  intro l
  induction l with
  | nil => intro i; rfl
  | cons c t ih => intro i; simp [nstrsumFrom, ih]

theorem nstrsum_eq (s : String) : nstrsum s = nameWeight s := nstrsumFrom_eq _ _

theorem netKey_eq {h : Host} (hs : Sortable h) : netKey h = .ok (networkKey h) := by
  cases h <;> simp [netKey, networkKey, nstrsum_eq]
  · exact absurd rfl (hs.1 _ _)
  · exact absurd rfl (hs.2 _)

theorem protoKey_eq (p : GTree Protocol) : protoKey p = .ok (protocolGroupKey p) := by
  cases p with
  | leaf a => simp only [protoKey, protocolGroupKey]; cases pyInt a.toList <;> simp [nstrsum_eq]
  | group => simp [protoKey, protocolGroupKey, nstrsum_eq]

theorem portTextKey_eq (gs : String → Option Nat) (x : String) : portTextKey gs (some x) = .ok (portNumber gs x) := by
  unfold portTextKey portNumber
  simp only
  cases pyInt x.toList with
  | some n => simp
  | none => cases gs x <;> simp [nstrsum_eq]

theorem portKey_eq (gs : String → Option Nat) (p : GTree PortLeaf) (h : Numbered p) :
    portKey gs p = .ok (portGroupKey gs p) := by
  cases p with
  | leaf a =>
    cases a with
    | port p =>
      obtain ⟨op, num⟩ := p
      cases num with
      | none => exact absurd rfl h
      | some n => simp [portKey, portGroupKey, portTextKey_eq]
    | range => simp [portKey, portGroupKey, portTextKey_eq]
  | group => simp [portKey, portGroupKey, nstrsum_eq]

theorem svcKey_eq (gs : String → Option Nat) (p : GTree (SvcLeaf (GTree PortLeaf))) (h : NumberedService p) :
    svcKey gs p = .ok (serviceGroupKey gs p) := by
  have e : ∀ o : Option (GTree PortLeaf), (∀ p ∈ o, Numbered p) → svcPortKey gs o = .ok ((o.map (portGroupKey gs)).getD 0) := by
    intro o ho
    cases o with
    | none => simp [svcPortKey]
    | some q => simp [svcPortKey, portKey_eq gs q (ho q rfl)]
  cases p with
  | leaf a =>
    have : svcOf a = a.value := by cases a <;> rfl
    simp [svcKey, serviceGroupKey, this, e _ h.1, e _ h.2]
  | group => simp [svcKey, serviceGroupKey]

theorem intLe_iff (a b : Int) : intLe a b = true ↔ a ≤ b := by simp [intLe]

theorem svcLe_iff (a b : SvcKey) : svcLe a b = true ↔ ServiceKeyLe a b := by
  unfold svcLe ServiceKeyLe
  by_cases h1 : a.proto = b.proto
  · by_cases h2 : a.src = b.src
    · by_cases h3 : a.dst = b.dst
      · by_cases h4 : a.code = b.code <;> simp [h1, h2, h3, h4, Std.lt_irrefl]
      · simp [h1, h2, h3, Std.lt_irrefl]
    · simp [h1, h2, Std.lt_irrefl]
  · simp [h1]

theorem svcLe_total (a b : SvcKey) : ServiceKeyLe a b ∨ ServiceKeyLe b a := by
  unfold ServiceKeyLe
  rcases Std.lt_trichotomy a.proto b.proto with h | h | h
  · exact .inl (.inl h)
  · rcases Int.lt_trichotomy a.src b.src with h2 | h2 | h2
    · exact .inl (.inr ⟨h, .inl h2⟩)
    · rcases Int.lt_trichotomy a.dst b.dst with h3 | h3 | h3
      · exact .inl (.inr ⟨h, .inr ⟨h2, .inl h3⟩⟩)
      · rcases Std.lt_trichotomy a.code b.code with h4 | h4 | h4
        · exact .inl (.inr ⟨h, .inr ⟨h2, .inr ⟨h3, .inl h4⟩⟩⟩)
        · rcases Std.le_total (a := a.typ) (b := b.typ) with h5 | h5
          · exact .inl (.inr ⟨h, .inr ⟨h2, .inr ⟨h3, .inr ⟨h4, h5⟩⟩⟩⟩)
          · exact .inr (.inr ⟨h.symm, .inr ⟨h2.symm, .inr ⟨h3.symm, .inr ⟨h4.symm, h5⟩⟩⟩⟩)
        · exact .inr (.inr ⟨h.symm, .inr ⟨h2.symm, .inr ⟨h3.symm, .inl h4⟩⟩⟩)
      · exact .inr (.inr ⟨h.symm, .inr ⟨h2.symm, .inl h3⟩⟩)
    · exact .inr (.inr ⟨h.symm, .inl h2⟩)
  · exact .inr (.inl h)

theorem svcLe_trans (a b c : SvcKey) (h1 : ServiceKeyLe a b) (h2 : ServiceKeyLe b c) : ServiceKeyLe a c := by
  unfold ServiceKeyLe at *
  rcases h1 with h1 | ⟨e1, h1⟩
  · rcases h2 with h2 | ⟨e2, _⟩
    · exact .inl (Std.lt_trans h1 h2)
    · exact .inl (e2 ▸ h1)
  · rcases h2 with h2 | ⟨e2, h2⟩
    · exact .inl (e1 ▸ h2)
    · refine .inr ⟨e1.trans e2, ?_⟩
      rcases h1 with h1 | ⟨f1, h1⟩
      · rcases h2 with h2 | ⟨f2, _⟩
        · exact .inl (by omega)
        · exact .inl (by omega)
      · rcases h2 with h2 | ⟨f2, h2⟩
        · exact .inl (by omega)
        · refine .inr ⟨f1.trans f2, ?_⟩
          rcases h1 with h1 | ⟨g1, h1⟩
          · rcases h2 with h2 | ⟨g2, _⟩
            · exact .inl (by omega)
            · exact .inl (by omega)
          · rcases h2 with h2 | ⟨g2, h2⟩
            · exact .inl (by omega)
            · refine .inr ⟨g1.trans g2, ?_⟩
              rcases h1 with h1 | ⟨i1, h1⟩
              · rcases h2 with h2 | ⟨i2, _⟩
                · exact .inl (Std.lt_trans h1 h2)
                · exact .inl (i2 ▸ h1)
              · rcases h2 with h2 | ⟨i2, h2⟩
                · exact .inl (i1 ▸ h2)
                · exact .inr ⟨i1.trans i2, Std.le_trans h1 h2⟩

theorem svcLe_antisymm (a b : SvcKey) (h1 : ServiceKeyLe a b) (h2 : ServiceKeyLe b a) : a = b := by
  unfold ServiceKeyLe at *
  have irr : ∀ x y : String, x < y → y < x → False := fun x y h h' => Std.lt_irrefl (Std.lt_trans h h')
  have irr' : ∀ x y : String, x < y → y = x → False := fun x y h h' => Std.lt_irrefl (h' ▸ h)
  rcases h1 with h1 | ⟨e1, h1⟩
  · rcases h2 with h2 | ⟨e2, _⟩
    · exact (irr _ _ h1 h2).elim
    · exact (irr' _ _ h1 e2).elim
  · rcases h2 with h2 | ⟨_, h2⟩
    · exact (irr' _ _ h2 e1).elim
    · rcases h1 with h1 | ⟨f1, h1⟩
      · omega
      · rcases h2 with h2 | ⟨_, h2⟩
        · omega
        · rcases h1 with h1 | ⟨g1, h1⟩
          · omega
          · rcases h2 with h2 | ⟨_, h2⟩
            · omega
            · rcases h1 with h1 | ⟨i1, h1⟩
              · rcases h2 with h2 | ⟨e2, _⟩
                · exact (irr _ _ h1 h2).elim
                · exact (irr' _ _ h1 e2).elim
              · rcases h2 with h2 | ⟨_, h2⟩
                · exact (irr' _ _ h2 i1).elim
                · have := Std.le_antisymm h1 h2
                  cases a; cases b; simp_all

/-! ## C28 -/

/-- `sorted` with integer keys. -/
theorem pySorted_int {α : Type} {key : α → Py Int} {k : α → Int} {l : List α} (h : ∀ x ∈ l, key x = .ok (k x)) :
    ∃ out, pySorted key intLe l = .ok out ∧ StableSort (· ≤ ·) k l out ∧ pySorted key intLe out = .ok out := by
  have mk := fun (l : List α) (h : ∀ x ∈ l, key x = .ok (k x)) =>
    pySorted_stable (leB := intLe) (le := (· ≤ ·)) intLe_iff
      (fun a b c => Int.le_trans) (fun a b => Int.le_total a b) h
  obtain ⟨out, h1, h2⟩ := mk l h
  refine ⟨out, h1, h2, ?_⟩
  obtain ⟨out', h1', h2'⟩ := mk out (fun x hx => h x (h2.1.mem_iff.1 hx))
  rw [h1', stableSort_unique (fun a b => Int.le_antisymm) h2' h2.self]

/-- **C28** for network groups: `sort()` puts the members into stable order of the keys, sorting
again changes nothing. -/
theorem C28_sort_network (objs : List Host) (hs : ∀ h ∈ objs, Sortable h) :
    ∃ out, netSort true objs = (out, .ok out) ∧ StableSort (· ≤ ·) networkKey objs out ∧
      netSort true out = (out, .ok out) := by
  obtain ⟨out, h1, h2, h3⟩ := pySorted_int (key := netKey) (k := networkKey) (fun x hx => netKey_eq (hs x hx))
  exact ⟨out, by simp [netSort, h1], h2, by simp [netSort, h3]⟩

/-- **C28** a member without key: ValueError, and the group is unchanged. -/
theorem C28_unsortable_rejected (objs : List Host) (h : Host) (hm : h ∈ objs) (hs : ¬ Sortable h) :
    netSort true objs = (objs, .error .value) := by
  have hv : ∀ l : List Host, h ∈ l → keysOf netKey l = .error .value := by
    intro l
    induction l with
    | nil => intro h; cases h
    | cons y t ih =>
      intro hm
      by_cases hy : Sortable y
      · have : h ≠ y := fun e => hs (e ▸ hy)
        simp [keysOf, netKey_eq hy, ih ((List.mem_cons.1 hm).resolve_left this)]
      · have : netKey y = .error .value := by
          cases y <;> first | rfl | exact absurd ⟨by simp, by simp⟩ hy
        simp [keysOf, this]
  simp [netSort, pySorted, hv objs hm]

theorem loopAny_perm {α : Type} {f g : α → Py Bool} {l l' : List α} (hp : l.Perm l')
    (hfg : ∀ x ∈ l, ∀ r r', f x = .ok r → g x = .ok r' → r = r') {r r' : Bool}
    (h1 : loopAny f l = .ok r) (h2 : loopAny g l' = .ok r') : r = r' := by
  have pos : ∀ (f : α → Py Bool) (l : List α), loopAny f l = .ok true → ∃ x ∈ l, f x = .ok true :=
    fun f l h => loopAny_witness h
  have neg : ∀ (f : α → Py Bool) (l : List α), loopAny f l = .ok false → ∀ x ∈ l, f x = .ok false := by
    intro f l
    induction l with
    | nil => intro _ x hx; cases hx
    | cons y t ih =>
      intro h x hx
      unfold loopAny at h
      cases hy : f y with
      | error e => rw [hy] at h; cases h
      | ok b =>
        rw [hy] at h
        cases b with
        | true => simp at h
        | false =>
          rcases List.mem_cons.1 hx with rfl | hx
          · exact hy
          · exact ih h x hx
  cases r <;> cases r' <;> try rfl
  · obtain ⟨x, hx, e⟩ := pos g l' h2
    have := neg f l h1 x (hp.mem_iff.2 hx)
    exact hfg x (hp.mem_iff.2 hx) _ _ this e
  · obtain ⟨x, hx, e⟩ := pos f l h1
    have := neg g l' h2 x (hp.mem_iff.1 hx)
    exact hfg x hx _ _ e this

/-- Permuting the members of a group does not change an answer of `g & x`. -/
theorem perm_left {nm : String} {l l' : List Host} (hp : l.Perm l') {x : Host} {fuel : Nat} {r r' : Bool}
    (h1 : meet fuel (.group nm l) x = .ok r) (h2 : meet fuel (.group nm l') x = .ok r') : r = r' := by
  cases fuel with
  | zero => cases h1
  | succ n =>
    simp only [meet] at h1 h2
    refine loopAny_perm hp ?_ h1 h2
    intro y _ r r' e1 e2
    rw [e1] at e2; cases e2; rfl

/-- … nor of `x & g`. -/
theorem perm_right {nm : String} {l l' : List Host} (hp : l.Perm l') : ∀ {fuel : Nat} {x : Host} {r r' : Bool},
    meet fuel x (.group nm l) = .ok r → meet fuel x (.group nm l') = .ok r' → r = r' := by
  intro fuel
  induction fuel with
  | zero => intro x r r' h1; cases h1
  | succ n ih =>
    intro x r r' h1 h2
    cases x with
    | net => simp only [meet] at h1 h2; exact perm_left hp h1 h2
    | host => simp only [meet] at h1 h2; exact perm_left hp h1 h2
    | wild => simp only [meet] at h1 h2; exact perm_left hp h1 h2
    | any => simp [meet] at h1 h2; rw [h1, h2]
    | iface => simp [meet] at h1 h2; rw [h1, h2]
    | any4 => simp only [meet] at h1 h2; exact perm_left hp h1 h2
    | any6 => simp only [meet] at h1 h2; exact perm_left hp h1 h2
    | obj nm' m =>
      simp only [meet] at h1 h2
      exact loopAny_perm (List.Perm.refl _) (fun y _ r r' e1 e2 => ih e1 e2) h1 h2
    | group nm' m =>
      simp only [meet] at h1 h2
      exact loopAny_perm (List.Perm.refl _) (fun y _ r r' e1 e2 => ih e1 e2) h1 h2
    | cafAny =>
      simp [meet, Host.isNetworkAny] at h1 h2
      exact loopAny_perm hp (fun y _ r r' e1 e2 => by rw [e1] at e2; cases e2; rfl) h1 h2
    | cafAny4 =>
      simp [meet, Host.isNetworkAny4] at h1 h2
      exact loopAny_perm hp (fun y _ r r' e1 e2 => by rw [e1] at e2; cases e2; rfl) h1 h2
    | cafAny6 =>
      simp [meet, Host.isNetworkAny6] at h1 h2
      exact loopAny_perm hp (fun y _ r r' e1 e2 => by rw [e1] at e2; cases e2; rfl) h1 h2

/-- **C28** sorting does not change what a group matches, on either side (the side condition is the
termination condition C05 of host matching). -/
theorem C28_sort_keeps_matching (nm : String) (objs : List Host) (hs : ∀ h ∈ objs, Sortable h) (x : Host)
    (hw : ¬ (HasWild (.group nm objs) ∧ HasWild x)) :
    ∃ out, netSort true objs = (out, .ok out) ∧ ∃ (r r' : Bool) (N : Nat), ∀ fuel, N ≤ fuel →
      meet fuel (.group nm objs) x = .ok r ∧ meet fuel (.group nm out) x = .ok r ∧
      meet fuel x (.group nm objs) = .ok r' ∧ meet fuel x (.group nm out) = .ok r' := by
  obtain ⟨out, h1, h2, _⟩ := C28_sort_network objs hs
  refine ⟨out, h1, ?_⟩
  have hw' : ¬ (HasWild (.group nm out) ∧ HasWild x) := by
    rintro ⟨⟨a, w, hl⟩, h⟩
    refine hw ⟨⟨a, w, ?_⟩, h⟩
    rw [leaf_group] at hl ⊢
    obtain ⟨y, hy, hl⟩ := hl
    exact ⟨y, h2.1.mem_iff.1 hy, hl⟩
  obtain ⟨r1, e1⟩ := C05_terminates_partial _ _ hw
  obtain ⟨r2, e2⟩ := C05_terminates_partial _ _ hw'
  obtain ⟨r3, e3⟩ := C05_terminates_partial x (.group nm objs) (fun h => hw h.symm)
  obtain ⟨r4, e4⟩ := C05_terminates_partial x (.group nm out) (fun h => hw' h.symm)
  refine ⟨r1, r3, (Host.group nm objs).depth + (Host.group nm out).depth + x.depth + 1, fun fuel hf => ?_⟩
  have e1 := e1 fuel (by omega)
  have e2 := e2 fuel (by omega)
  have e3 := e3 fuel (by omega)
  have e4 := e4 fuel (by omega)
  have h12 := perm_left h2.1 e2 e1
  have h34 := perm_right h2.1 e4 e3
  exact ⟨e1, h12 ▸ e2, e3, h34 ▸ e4⟩

/-- **C28** for protocol groups. -/
theorem C28_sort_protocol (objs : List (GTree Protocol)) :
    ∃ out, collapseSort protoKey intLe true objs = (out, .ok out) ∧
      StableSort (· ≤ ·) protocolGroupKey objs out ∧
      collapseSort protoKey intLe true out = (out, .ok out) := by
  obtain ⟨out, h1, h2, h3⟩ := pySorted_int (key := protoKey) (l := objs) (fun x _ => protoKey_eq x)
  exact ⟨out, by simp [collapseSort, h1], h2, by simp [collapseSort, h3]⟩

/-- **C28** for port groups, whatever the operating system's service table is. -/
theorem C28_sort_port (getserv : String → Option Nat) (objs : List (GTree PortLeaf)) (hn : ∀ p ∈ objs, Numbered p) :
    ∃ out, portSort getserv true objs = (out, .ok out) ∧
      StableSort (· ≤ ·) (portGroupKey getserv) objs out ∧
      portSort getserv true out = (out, .ok out) := by
  obtain ⟨out, h1, h2, h3⟩ := pySorted_int (key := portKey getserv) (fun x hx => portKey_eq getserv x (hn x hx))
  exact ⟨out, by simp [portSort, h1], h2, by simp [portSort, h3]⟩

/-- **C28** a port without number (every `port-object eq` member, see C53): TypeError, and the group
is unchanged. -/
theorem C28_unnumbered_port_raises (getserv : String → Option Nat) (objs : List (GTree PortLeaf)) (p : GTree PortLeaf)
    (hm : p ∈ objs) (hp : ¬ Numbered p) : portSort getserv true objs = (objs, .error .type) := by
  have hv : ∀ l : List (GTree PortLeaf), p ∈ l → keysOf (portKey getserv) l = .error .type := by
    intro l
    induction l with
    | nil => intro h; cases h
    | cons y t ih =>
      intro hm
      by_cases hy : Numbered y
      · have : p ≠ y := fun e => hp (e ▸ hy)
        simp [keysOf, portKey_eq getserv y hy, ih ((List.mem_cons.1 hm).resolve_left this)]
      · have : portKey getserv y = .error .type := by
          cases y with
          | group => exact absurd trivial hy
          | leaf a =>
            cases a with
            | range => exact absurd trivial hy
            | port q =>
              obtain ⟨op, num⟩ := q
              cases num with
              | none => rfl
              | some n => exact absurd (by simp [Numbered]) hy
        simp [keysOf, this]
  simp [portSort, pySorted, hv objs hm]

/-- **C28** for service groups. -/
theorem C28_sort_service (getserv : String → Option Nat) (objs : List (GTree (SvcLeaf (GTree PortLeaf))))
    (hn : ∀ p ∈ objs, NumberedService p) :
    ∃ out, collapseSort (svcKey getserv) svcLe true objs = (out, .ok out) ∧
      StableSort ServiceKeyLe (serviceGroupKey getserv) objs out ∧
      collapseSort (svcKey getserv) svcLe true out = (out, .ok out) := by
  have mk := fun (l : List (GTree (SvcLeaf (GTree PortLeaf)))) (hn : ∀ p ∈ l, NumberedService p) =>
    pySorted_stable (leB := svcLe) (le := ServiceKeyLe) svcLe_iff svcLe_trans svcLe_total
      (k := serviceGroupKey getserv) (l := l) (fun x hx => svcKey_eq getserv x (hn x hx))
  obtain ⟨out, h1, h2⟩ := mk objs hn
  obtain ⟨out', h1', h2'⟩ := mk out (fun p hp => hn p (h2.1.mem_iff.1 hp))
  have := stableSort_unique svcLe_antisymm h2' h2.self
  exact ⟨out, by simp [collapseSort, h1], h2, by simp [collapseSort, h1', this]⟩

/-- A port group, a service group and a network group with equal keys and all kinds of member. -/
example : ∀ h ∈ [Host.host ⟨.v4, 7⟩, .any, .net ⟨.v4, 7, 32⟩, .group "g" [.wild 1 1], .obj "o" [.any]], Sortable h := by
  intro h hm
  simp only [List.mem_cons, List.not_mem_nil, or_false] at hm
  rcases hm with rfl | rfl | rfl | rfl | rfl <;> exact ⟨by simp, by simp⟩

/-! ## C29 -/

theorem weight_neg : ∀ (l : List Char) (i : Nat), l ≠ [] → (∀ c ∈ l, c.toNat < 255) → nstrsumFrom i l < 0 := by
  intro l
  induction l with
  | nil => intro i h; exact absurd rfl h
  | cons c t ih =>
    intro i _ h
    have hc := h c (by simp)
    have hp : (0 : Int) < 2 ^ i := Int.pow_pos (by decide)
    have hneg : ((c.toNat : Int) - 255) * 2 ^ i < 0 := Int.mul_neg_of_neg_of_pos (by omega) hp
    unfold nstrsumFrom
    by_cases ht : t = []
    · subst ht; simp only [nstrsumFrom]; omega
    · have := ih (i + 1) ht (fun d hd => h d (by simp [hd]))
      omega

theorem nameWeight_neg {s : String} (h : PlainName s) : nameWeight s < 0 := by
  rw [← nstrsum_eq]
  refine weight_neg _ _ ?_ h.2
  intro e
  apply h.1
  rw [← String.toList_inj]
  exact e

theorem key_neg {h : Host} (hs : Sortable h) (hn : SortedByName h) (hp : HasPlainName h) : networkKey h < 0 := by
  cases h with
  | net n => exact absurd rfl (hn.1 n)
  | host n => exact absurd rfl (hn.2 n)
  | wild a w => exact absurd rfl (hs.1 a w)
  | iface nm => exact absurd rfl (hs.2 nm)
  | group nm l => exact nameWeight_neg hp
  | obj nm l => exact nameWeight_neg hp
  | any => show nameWeight _ < 0; decide
  | any4 => show nameWeight _ < 0; decide
  | any6 => show nameWeight _ < 0; decide
  | cafAny => show nameWeight _ < 0; decide
  | cafAny4 => show nameWeight _ < 0; decide
  | cafAny6 => show nameWeight _ < 0; decide

/-- **C29** after `sort()`, for any two members in list order: if the second is sorted by name so is
the first (named members come first); and two addresses appear in ascending order. -/
theorem C29_named_members_first (objs : List Host) (hs : ∀ h ∈ objs, Sortable h)
    (hp : ∀ h ∈ objs, HasPlainName h) :
    ∃ out, netSort true objs = (out, .ok out) ∧ out.Perm objs ∧
      out.Pairwise (fun x y => SortedByName y → SortedByName x) ∧
      out.Pairwise (fun x y => ∀ i j, AddressNumber x i → AddressNumber y j → i ≤ j) := by
  obtain ⟨out, h1, h2, _⟩ := C28_sort_network objs hs
  refine ⟨out, h1, h2.1, ?_, h2.2.1.imp ?_⟩
  rotate_left
  · intro x y h i j hi hj
    have hx : networkKey x = (i : Int) := by cases hi <;> rfl
    have hy : networkKey y = (j : Int) := by cases hj <;> rfl
    omega
  refine List.Pairwise.imp_of_mem ?_ h2.2.1
  intro x y hx hy hle hny
  have hy' := key_neg (hs y (h2.1.mem_iff.1 hy)) hny (hp y (h2.1.mem_iff.1 hy))
  refine ⟨fun n e => ?_, fun a e => ?_⟩
  · subst e
    have : networkKey (.net n) = (n.addr : Int) := rfl
    omega
  · subst e
    have : networkKey (.host a) = (a.ip : Int) := rfl
    omega

/-- The restriction to plain names is needed: a group named "Ā" (U+0100) is keyed 1, behind 0.0.0.0. -/
example : networkKey (.group "Ā" []) = 1 ∧ networkKey (.host ⟨.v4, 0⟩) = 0 := by decide
example : PlainName "DMZ-servers" := ⟨by decide, by decide⟩

/-! ## C30 -/

/-- **C30 is violated** for service and protocol groups: `sort(insitu=False)` raises AttributeError. -/
theorem C30_violated_service_protocol (getserv : String → Option Nat)
    (svc : List (GTree (SvcLeaf (GTree PortLeaf)))) (proto : List (GTree Protocol)) :
    collapseSort (svcKey getserv) svcLe false svc = (svc, .error .attribute) ∧
    collapseSort protoKey intLe false proto = (proto, .error .attribute) := ⟨rfl, rfl⟩

/-- **C30 is violated** for groups made of networks only: the group itself is collapsed.  Witness: a
group listing the same network twice lists it once afterwards. -/
theorem C30_violated_network :
    ∃ objs after : List Host, ∃ r, netSort false objs = (after, r) ∧ after ≠ objs := by
  refine ⟨[.net ⟨.v4, 0, 8⟩, .net ⟨.v4, 0, 8⟩], _, _, rfl, ?_⟩
  have hv : (⟨.v4, 0, 8⟩ : Net).Valid := by decide +kernel
  have hnets : ∀ o ∈ [Host.net ⟨.v4, 0, 8⟩, .net ⟨.v4, 0, 8⟩], ∃ n, o = .net n := by simp
  have hleaf : ∀ x, Leaf (.group "g" [Host.net ⟨.v4, 0, 8⟩, .net ⟨.v4, 0, 8⟩]) x → x = .net ⟨.v4, 0, 8⟩ := by
    intro x hx
    rw [leaf_group] at hx
    obtain ⟨h, hm, hl⟩ := hx
    simp at hm; subst hm; cases hl; rfl
  have hflat : FlatObjects (.group "g" [Host.net ⟨.v4, 0, 8⟩, .net ⟨.v4, 0, 8⟩]) := by
    intro nm l hg
    cases hg with
    | group hm hg => simp at hm; subst hm; cases hg
  have hall : AllV4 "g" [Host.net ⟨.v4, 0, 8⟩, .net ⟨.v4, 0, 8⟩] := by
    intro x hx; rw [hleaf x hx]; exact ⟨hv, rfl⟩
  obtain ⟨nets, e, hval, hb, _, _, _, h1, _⟩ := C26_collapse_v4 false "g" _ hflat hall (.inl hnets)
  have h1 := h1 hnets
  have hc : collapse false [Host.net ⟨.v4, 0, 8⟩, .net ⟨.v4, 0, 8⟩] = (nets.map memberOf, .ok (nets.map memberOf)) :=
    Prod.ext h1 e
  intro hcontra
  rw [hc] at hcontra
  have hsort : ∀ h ∈ nets.map memberOf, Sortable h := by
    intro h hm
    obtain ⟨n, _, rfl⟩ := List.mem_map.1 hm
    unfold memberOf; split <;> exact ⟨by simp, by simp⟩
  obtain ⟨out, o1, o2, _⟩ := pySorted_int (key := netKey) (k := networkKey) (fun x hx => netKey_eq (hsort x hx))
  simp only [o1] at hcontra
  have hlen : nets.length = 2 := by
    have := o2.1.length_eq
    have h2 : out = [Host.net ⟨.v4, 0, 8⟩, .net ⟨.v4, 0, 8⟩] := hcontra
    rw [h2] at this
    simpa using this.symm
  have hall2 : ∀ n ∈ nets, n = ⟨.v4, 0, 8⟩ := by
    intro n hn
    have : memberOf n ∈ out := o2.1.mem_iff.2 (List.mem_map_of_mem hn)
    have h2 : out = [Host.net ⟨.v4, 0, 8⟩, .net ⟨.v4, 0, 8⟩] := hcontra
    rw [h2] at this
    simp only [List.mem_cons, List.not_mem_nil, or_false, or_self] at this
    unfold memberOf at this
    split at this
    · cases this
    · exact Host.net.inj this
  match nets, hlen with
  | [a, b], _ =>
    have ha := hall2 a (by simp)
    have hb' := hall2 b (by simp)
    simp only [List.pairwise_cons] at hb
    have := hb.1 b (by simp)
    subst ha; subst hb'
    revert this
    unfold Below
    simp [Ver.width]

theorem treeLeaves_unique {α : Type} {l : List (GTree α)} {a b : List α} (h1 : TreeLeaves l a) (h2 : TreeLeaves l b) :
    a = b := by
  induction h1 generalizing b with
  | nil => cases h2; rfl
  | leaf _ ih => cases h2 with | leaf h => rw [ih h]
  | group _ _ ih1 ih2 => cases h2 with | group h h' => rw [ih1 h, ih2 h']

/-- **C30, what holds**: for port groups whose ports have
numbers (the copy is expanded, then sorted); for network
groups that have a host, nested group or `any` member: the group is left alone, and if the call
returns, it returns its members (not expanded, not collapsed) in stable order.  Missing: service and
protocol groups and groups of networks only, where it is false. -/
theorem C30_sort_copy_partial (getserv : String → Option Nat) :
    (∀ (ports : List (GTree PortLeaf)) (leaves : List PortLeaf), TreeLeaves ports leaves →
      (∀ p ∈ leaves, Numbered (.leaf p)) → ∃ out,
      portSort getserv false ports = (ports, .ok out) ∧
      StableSort (· ≤ ·) (portGroupKey getserv) (leaves.map .leaf) out) ∧
    (∀ objs : List Host, (∃ o ∈ objs, (∀ n, o ≠ .net n) ∧ ∀ q l, o ≠ .obj q l) →
      (netSort false objs).1 = objs ∧
      ∀ out, (netSort false objs).2 = .ok out → StableSort (· ≤ ·) networkKey objs out) := by
  constructor
  · intro ports leaves hl hn
    obtain ⟨a, h1, _, _, _, h4, _⟩ := C23_plain_expand ports
    have := treeLeaves_unique hl h1
    subst this
    obtain ⟨out, o1, o2, _⟩ := pySorted_int (key := portKey getserv) (k := portGroupKey getserv) (l := leaves.map GTree.leaf)
      (fun x hx => by
        obtain ⟨y, hy, rfl⟩ := List.mem_map.1 hx
        exact portKey_eq getserv _ (hn y hy))
    exact ⟨out, by simp [portSort, h4, o1], o2⟩
  · intro objs hex
    have hk := ((C27_keeps_or_rejects_partial "" objs).2 hex).2
    have hany : objs.any (fun o => !o.isNetOrObj) = true := by
      obtain ⟨o, ho, h1, h2⟩ := hex
      rw [List.any_eq_true]
      refine ⟨o, ho, ?_⟩
      cases o <;> first | exact absurd rfl (h1 _) | exact absurd rfl (h2 _ _) | rfl
    have he : ∀ r, collapse false objs = r → r.1 = objs := by rintro r rfl; exact hk
    unfold netSort
    rw [if_neg (by simp)]
    match hc : collapse false objs with
    | (after, .error e) =>
      have : after = objs := he _ hc
      subst this
      exact ⟨rfl, fun out h => by cases h⟩
    | (after, .ok l) =>
      have : after = objs := he _ hc
      subst this
      simp only
      by_cases hs : ∀ h ∈ after, Sortable h
      · obtain ⟨out, o1, o2, _⟩ := pySorted_int (key := netKey) (k := networkKey) (fun x hx => netKey_eq (hs x hx))
        rw [o1]
        refine ⟨by simp [hany], fun out' h => ?_⟩
        cases h; exact o2
      · simp only [Classical.not_forall] at hs
        obtain ⟨h, hm, hn⟩ := hs
        have hnk : ∃ e, netKey h = .error e := by
          cases h <;> first | exact ⟨_, rfl⟩ | exact absurd ⟨by simp, by simp⟩ hn
        obtain ⟨e, hnk⟩ := hnk
        obtain ⟨e', h'⟩ := pySorted_error (leB := intLe) hm hnk
        rw [h']
        exact ⟨rfl, fun out h => by cases h⟩

end Acltk
