import Verif.Props.Collapse
/-!
# C27: groups with IPv6 members and groups that mix versions, for every group
-/
namespace Acltk

/-- A network or host of one version. -/
def IsItemOf (v : Ver) : Host → Prop
  | .net n => n.Valid ∧ n.ver = v
  | .host a => a.Valid ∧ a.ver = v
  | _ => False

/-- A network or host. -/
def IsItem (o : Host) : Prop := ∃ v, IsItemOf v o

theorem addressesOf_ok {objs : List Host} (h : ∀ o ∈ objs, IsItem o) :
    ∃ items, addressesOf objs = .ok items ∧ (∀ it ∈ items, ∃ v, it.Ok v) ∧
      (∀ v, (∃ it ∈ items, it.Ok v) ↔ ∃ o ∈ objs, IsItemOf v o) ∧
      ∀ x, (∃ it ∈ items, it.Covers x) ↔ ∃ o ∈ objs, Covers o x := by
  induction objs with
  | nil => exact ⟨[], rfl, by simp, by simp, by simp⟩
  | cons o t ih =>
    obtain ⟨items, h1, h2, h3, h4⟩ := ih (fun o ho => h o (by simp [ho]))
    obtain ⟨v, ho⟩ := h o (by simp)
    cases o with
    | net n =>
      refine ⟨.net n :: items, by simp [addressesOf, h1], ?_, ?_, ?_⟩
      · intro it hit
        rcases List.mem_cons.1 hit with rfl | hit
        · exact ⟨v, ho⟩
        · exact h2 it hit
      · intro w
        simp only [List.mem_cons, exists_eq_or_imp, h3]; rfl
      · intro x
        simp only [List.mem_cons, exists_eq_or_imp, h4, covers_net]; rfl
    | host a =>
      refine ⟨.addr a :: items, by simp [addressesOf, h1], ?_, ?_, ?_⟩
      · intro it hit
        rcases List.mem_cons.1 hit with rfl | hit
        · exact ⟨v, ho⟩
        · exact h2 it hit
      · intro w
        simp only [List.mem_cons, exists_eq_or_imp, h3]; rfl
      · intro x
        simp only [List.mem_cons, exists_eq_or_imp, h4, covers_host]; rfl
    | _ => exact ho.elim

/-- The splitting loop fails with TypeError or leaves each list with one version, and every version
of an item in one of the lists. -/
theorem splitItems_versions : ∀ (items : List WItem) (ips : List Addr) (nets : List Net) (va vn : Ver),
    (∀ it ∈ items, ∃ v, it.Ok v) →
    (∀ a ∈ ips, a.Valid ∧ a.ver = va) → (∀ n ∈ nets, n.Valid ∧ n.ver = vn) →
    splitItems items ips nets = .error .type ∨
    ∃ ips' nets' va' vn', splitItems items ips nets = .ok (ips', nets') ∧
      (∀ a ∈ ips', a.Valid ∧ a.ver = va') ∧ (∀ n ∈ nets', n.Valid ∧ n.ver = vn') ∧
      (∀ v, (∃ it ∈ items, it.Ok v) ∨ (∃ a ∈ ips, a.ver = v) ∨ (∃ n ∈ nets, n.ver = v) →
        (∃ a ∈ ips', a.ver = v) ∨ (∃ n ∈ nets', n.ver = v)) := by
  intro items
  induction items with
  | nil =>
    intro ips nets va vn _ h1 h2
    exact Or.inr ⟨ips, nets, va, vn, rfl, h1, h2, by simp⟩
  | cons it t ih =>
    intro ips nets va vn hall h1 h2
    have ht : ∀ it ∈ t, ∃ v, it.Ok v := fun i hi => hall i (by simp [hi])
    obtain ⟨v, hit⟩ := hall it (by simp)
    have addIps : ∀ (a : Addr), a.Valid → a.ver = v → (∀ w, it.Ok w → w = v) →
        ¬ (ips.getLast?.map (·.ver)).getD a.ver ≠ a.ver →
        splitItems t (ips ++ [a]) nets = .error .type ∨
        ∃ ips' nets' va' vn', splitItems t (ips ++ [a]) nets = .ok (ips', nets') ∧
          (∀ a ∈ ips', a.Valid ∧ a.ver = va') ∧ (∀ n ∈ nets', n.Valid ∧ n.ver = vn') ∧
          (∀ v, (∃ i ∈ it :: t, i.Ok v) ∨ (∃ a ∈ ips, a.ver = v) ∨ (∃ n ∈ nets, n.ver = v) →
            (∃ a ∈ ips', a.ver = v) ∨ (∃ n ∈ nets', n.ver = v)) := by
      intro a hav hver huniq hlast
      have h1' : ∀ b ∈ ips ++ [a], b.Valid ∧ b.ver = v := by
        intro b hb
        rcases List.mem_append.1 hb with hb | hb
        · refine ⟨(h1 b hb).1, ?_⟩
          have hne : ips ≠ [] := List.ne_nil_of_mem hb
          rw [List.getLast?_eq_some_getLast hne] at hlast
          simp only [Option.map_some, Option.getD_some, ne_eq, Decidable.not_not] at hlast
          rw [(h1 b hb).2, ← (h1 _ (List.getLast_mem hne)).2, hlast, hver]
        · simp at hb; subst hb; exact ⟨hav, hver⟩
      rcases ih (ips ++ [a]) nets v vn ht h1' h2 with h | ⟨i, m, x, y, e, p1, p2, p3⟩
      · exact Or.inl h
      · refine Or.inr ⟨i, m, x, y, e, p1, p2, ?_⟩
        rintro w (⟨j, hj, hw⟩ | ⟨b, hb, hw⟩ | h)
        · rcases List.mem_cons.1 hj with rfl | hj
          · exact p3 w (Or.inr (Or.inl ⟨a, by simp, by rw [hver, huniq w hw]⟩))
          · exact p3 w (Or.inl ⟨j, hj, hw⟩)
        · exact p3 w (Or.inr (Or.inl ⟨b, by simp [hb], hw⟩))
        · exact p3 w (Or.inr (Or.inr h))
    cases it with
    | addr a =>
      unfold splitItems
      split
      · exact Or.inl rfl
      · rename_i hl
        exact addIps a hit.1 hit.2 (fun w hw => hw.2.symm.trans hit.2) hl
    | net n =>
      unfold splitItems
      split
      · split
        · exact Or.inl rfl
        · rename_i hl
          exact addIps n.networkAddress (Net.Denotes.valid hit.1 hit.1.denotes_self) hit.2
            (fun w hw => hw.2.symm.trans hit.2) hl
      · split
        · exact Or.inl rfl
        · rename_i hlast
          have h2' : ∀ b ∈ nets ++ [n], b.Valid ∧ b.ver = v := by
            intro b hb
            rcases List.mem_append.1 hb with hb | hb
            · refine ⟨(h2 b hb).1, ?_⟩
              have hne : nets ≠ [] := List.ne_nil_of_mem hb
              rw [List.getLast?_eq_some_getLast hne] at hlast
              simp only [Option.map_some, Option.getD_some, ne_eq, Decidable.not_not] at hlast
              rw [(h2 b hb).2, ← (h2 _ (List.getLast_mem hne)).2, hlast, hit.2]
            · simp at hb; subst hb; exact hit
          rcases ih ips (nets ++ [n]) va v ht h1 h2' with h | ⟨i, m, x, y, e, p1, p2, p3⟩
          · exact Or.inl h
          · refine Or.inr ⟨i, m, x, y, e, p1, p2, ?_⟩
            rintro w (⟨j, hj, hw⟩ | h | ⟨b, hb, hw⟩)
            · rcases List.mem_cons.1 hj with rfl | hj
              · exact p3 w (Or.inr (Or.inr ⟨n, by simp, hw.2⟩))
              · exact p3 w (Or.inl ⟨j, hj, hw⟩)
            · exact p3 w (Or.inr (Or.inl h))
            · exact p3 w (Or.inr (Or.inr ⟨b, by simp [hb], hw⟩))

/-- No version gets lost while merging. -/
theorem mergeLoop_ver (v : Ver) : ∀ (toMerge : List Net) (subnets : List (Net × Net)),
    (∀ p ∈ subnets, p.1.ver = p.2.ver) →
    ((∃ n ∈ toMerge, n.ver = v) ∨ ∃ p ∈ subnets, p.2.ver = v) →
    ∃ p ∈ mergeLoop toMerge subnets, p.2.ver = v := by
  intro toMerge subnets
  induction toMerge, subnets using mergeLoop.induct with
  | case1 subnets => intro _ h; unfold mergeLoop; simpa using h
  | case2 subnets net rest hg ih =>
    intro hk h
    unfold mergeLoop
    split
    · apply ih
      · intro p hp
        rcases List.mem_append.1 hp with hp | hp
        · exact hk p hp
        · simp at hp; subst hp; exact supernet_ver net
      · rcases h with ⟨n, hn, hv⟩ | ⟨p, hp, hv⟩
        · rcases List.mem_cons.1 hn with rfl | hn
          · exact Or.inr ⟨(supernet n, n), by simp, hv⟩
          · exact Or.inl ⟨n, hn, hv⟩
        · exact Or.inr ⟨p, by simp [hp], hv⟩
    · rename_i e he; rw [hg] at he; cases he
  | case3 subnets net rest ex hg hne ih =>
    intro hk h
    unfold mergeLoop
    split
    · rename_i he; rw [hg] at he; cases he
    · rename_i e he
      rw [hg] at he; cases he
      rw [if_pos hne]
      apply ih
      · intro p hp; exact hk p (List.mem_filter.1 hp).1
      · rcases h with ⟨n, hn, hv⟩ | ⟨p, hp, hv⟩
        · rcases List.mem_cons.1 hn with rfl | hn
          · exact Or.inl ⟨supernet n, by simp, by rw [supernet_ver]; exact hv⟩
          · exact Or.inl ⟨n, by simp [hn], hv⟩
        · by_cases e : p.1 = supernet net
          · refine Or.inl ⟨supernet net, by simp, ?_⟩
            rw [← e, hk p hp]; exact hv
          · exact Or.inr ⟨p, by simp [dictDel, hp, e], hv⟩
  | case4 subnets net rest ex hg hne ih =>
    intro hk h
    unfold mergeLoop
    split
    · rename_i he; rw [hg] at he; cases he
    · rename_i e he
      rw [hg] at he; cases he
      rw [if_neg hne]
      apply ih hk
      rcases h with ⟨n, hn, hv⟩ | h
      · rcases List.mem_cons.1 hn with rfl | hn
        · refine Or.inr ?_
          unfold dictGet at hg
          cases hf : subnets.find? (fun p => decide (p.1 = supernet n)) with
          | none => rw [hf] at hg; cases hg
          | some p =>
            rw [hf] at hg
            simp only [Option.map_some, Option.some.injEq] at hg
            refine ⟨p, List.mem_of_find?_eq_some hf, ?_⟩
            rw [hg]
            rw [ne_eq, Decidable.not_not] at hne
            rw [hne]; exact hv
        · exact Or.inl ⟨n, hn, hv⟩
      · exact Or.inr h

theorem collapseInternal_mixed {nets : List Net} (h4 : ∃ n ∈ nets, n.ver = .v4)
    (h6 : ∃ n ∈ nets, n.ver = .v6) : collapseInternal nets = .error .type := by
  have key : ∀ v, (∃ n ∈ nets, n.ver = v) → ∃ p ∈ mergeLoop nets.reverse [], p.2.ver = v := by
    rintro v ⟨n, hn, hv⟩
    exact mergeLoop_ver v _ _ (by simp) (Or.inl ⟨n, by simpa using hn, hv⟩)
  obtain ⟨p, hp, hp4⟩ := key _ h4
  obtain ⟨q, hq, hq6⟩ := key _ h6
  unfold collapseInternal
  simp only
  rw [if_pos]
  rw [List.any_eq_true]
  refine ⟨p.2, List.mem_map_of_mem hp, ?_⟩
  rw [List.any_eq_true]
  refine ⟨q.2, List.mem_map_of_mem hq, ?_⟩
  rw [hp4, hq6]; decide

theorem collapseAddresses_mixed {items : List WItem} (h : ∀ it ∈ items, ∃ v, it.Ok v)
    (h4 : ∃ it ∈ items, it.Ok .v4) (h6 : ∃ it ∈ items, it.Ok .v6) :
    collapseAddresses items = .error .type := by
  unfold collapseAddresses
  rcases splitItems_versions items [] [] .v4 .v4 h (by simp) (by simp) with e | ⟨ips, nets, va, vn, e, p1, p2, p3⟩
  · rw [e]
  · rw [e]
    simp only
    obtain ⟨addrs, s1, s2, s3⟩ := summarizeIps_ok p1
    rw [s1]
    simp only
    have key : ∀ v, (∃ it ∈ items, it.Ok v) → ∃ n ∈ addrs ++ nets, n.ver = v := by
      intro v hv
      rcases p3 v (Or.inl hv) with ⟨a, ha, hav⟩ | ⟨n, hn, hnv⟩
      · obtain ⟨n, hn, _⟩ := (s3 a).2 ha
        exact ⟨n, by simp [hn], by rw [(s2 n hn).2, ← (p1 a ha).2, hav]⟩
      · exact ⟨n, by simp [hn], hnv⟩
    exact collapseInternal_mixed (key _ h4) (key _ h6)

theorem not_any_of_items {objs : List Host} (h : ∀ o ∈ objs, IsItem o) :
    objs.any Host.isAnyKind = false := by
  rw [List.any_eq_false]
  intro o ho
  obtain ⟨v, hv⟩ := h o ho
  cases o <;> simp [IsItemOf] at hv <;>
    simp [Host.isAnyKind, Host.isNetworkAny, Host.isNetworkAny4, Host.isNetworkAny6]

theorem collapseMembers_mixed {objs : List Host} (h : ∀ o ∈ objs, IsItem o)
    (h4 : ∃ o ∈ objs, IsItemOf .v4 o) (h6 : ∃ o ∈ objs, IsItemOf .v6 o) :
    collapseMembers objs = ([], .error .type) := by
  obtain ⟨items, e, i1, i2, _⟩ := addressesOf_ok h
  unfold collapseMembers
  simp only [not_any_of_items h, Bool.false_eq_true, if_false, e,
    collapseAddresses_mixed i1 ((i2 _).2 h4) ((i2 _).2 h6)]

/-- What the two forms of the call do, whatever the leaves are. -/
theorem collapse_reduces {insitu : Bool} {nm : String} {objs : List Host} {P : Host → Prop}
    (hf : FlatObjects (.group nm objs)) (hall : ∀ x, Leaf (.group nm objs) x → P x)
    (hc : CollapseCall insitu objs) :
    ∃ items : List Host, (∀ o ∈ items, P o) ∧ (∀ o, o ∈ items ↔ Leaf (.group nm objs) o) ∧
      ∀ l r, collapseMembers items = (l, r) →
        (collapse insitu objs).2 = r.map (fun _ => l) ∧
        ((∀ o ∈ objs, ∃ n, o = .net n) → (collapse insitu objs).1 = l) ∧
        ((∃ o ∈ objs, ∀ n, o ≠ .net n) → (collapse insitu objs).1 = objs) := by
  by_cases hn : ∀ o ∈ objs, ∃ n, o = .net n
  · refine ⟨objs, ?_, ?_, ?_⟩
    · intro o ho
      obtain ⟨n, rfl⟩ := hn o ho
      exact hall _ (.group ho .net)
    · intro o
      constructor
      · intro ho
        obtain ⟨n, rfl⟩ := hn o ho
        exact .group ho .net
      · intro ho
        rw [leaf_group] at ho
        obtain ⟨h, hm, hl⟩ := ho
        obtain ⟨n, rfl⟩ := hn h hm
        cases hl; exact hm
    · intro l r hl
      have hany : objs.any (fun o => !o.isNetOrObj) = false := by
        rw [List.any_eq_false]; intro o ho
        obtain ⟨n, rfl⟩ := hn o ho; simp [Host.isNetOrObj]
      unfold collapse
      rw [if_neg (by simp [hany]), hl]
      refine ⟨?_, fun _ => ?_, ?_⟩
      · cases r <;> rfl
      · cases r <;> rfl
      · rintro ⟨o, ho, hne⟩
        obtain ⟨n, rfl⟩ := hn o ho
        exact absurd rfl (hne n)
  · rcases hc with h | ⟨hi, o, ho, h1, h2⟩
    · exact absurd h hn
    · subst hi
      obtain ⟨l, _, hm, _, he, _⟩ := C23_network_expand nm objs hf
      refine ⟨l, fun o ho => hall o ((hm o).1 ho), hm, ?_⟩
      intro out r hout
      have hany : objs.any (fun o => !o.isNetOrObj) = true := by
        rw [List.any_eq_true]
        refine ⟨o, ho, ?_⟩
        cases o <;> first | exact absurd rfl (h1 _) | exact absurd rfl (h2 _ _) | rfl
      unfold collapse
      rw [if_pos hany, if_neg (by simp), he]
      simp only [hout]
      refine ⟨?_, fun h => absurd h hn, fun _ => ?_⟩
      · cases r <;> rfl
      · cases r <;> rfl

/-- **C27 is violated by every group that mixes versions**: collapsing raises TypeError, and a group
of networks that is collapsed in place is empty afterwards. -/
theorem C27_violated_mixed_all (insitu : Bool) (nm : String) (objs : List Host)
    (hf : FlatObjects (.group nm objs)) (hall : ∀ x, Leaf (.group nm objs) x → IsItem x)
    (hc : CollapseCall insitu objs)
    (h4 : ∃ x, Leaf (.group nm objs) x ∧ IsItemOf .v4 x)
    (h6 : ∃ x, Leaf (.group nm objs) x ∧ IsItemOf .v6 x) :
    (collapse insitu objs).2 = .error .type ∧
    ((∀ o ∈ objs, ∃ n, o = .net n) → (collapse insitu objs).1 = []) ∧
    ((∃ o ∈ objs, ∀ n, o ≠ .net n) → (collapse insitu objs).1 = objs) := by
  obtain ⟨items, i1, i2, i3⟩ := collapse_reduces hf hall hc
  obtain ⟨x, hx, hx4⟩ := h4
  obtain ⟨y, hy, hy6⟩ := h6
  exact i3 _ _ (collapseMembers_mixed i1 ⟨x, (i2 x).2 hx, hx4⟩ ⟨y, (i2 y).2 hy, hy6⟩)

/-! ## IPv6 only -/

/-- The network is a single address. -/
def single (n : Net) : Bool := decide (n.plen = n.ver.width)

theorem rebuildLoop_v6 : ∀ (l : List Net) (acc : List Host), (∀ n ∈ l, n.Valid ∧ n.ver = .v6) →
    rebuildLoop l acc = (acc ++ (l.takeWhile single).map memberOf,
      if l.all single then .ok () else .error .value) := by
  intro l
  induction l with
  | nil => intro acc _; simp [rebuildLoop]
  | cons n t ih =>
    intro acc h
    obtain ⟨hn, hv⟩ := h n (by simp)
    have ht := fun m hm => h m (List.mem_cons_of_mem n hm)
    unfold rebuildLoop
    by_cases hp : n.plen = n.ver.width
    · rw [if_neg (by rw [size_gt_one hn.1]; simpa using hp)]
      have hval : n.networkAddress.Valid := hn.2.1
      rw [ipAddress_text hval]
      simp only
      rw [ih _ ht]
      have hs : single n = true := by simp [single, hp]
      simp [memberOf, hp, hs]
    · rw [if_pos ((size_gt_one hn.1).2 hp), mkNetwork_netmask_v6 hn hv]
      have hs : single n = false := by simp [single, hp]
      simp [hs]

/-- **C27 for IPv6 groups, exactly**: the group is summarised into the same canonical list of
networks as an IPv4 group would be; the call succeeds iff all of them are single addresses.
Otherwise it raises ValueError, and a group of networks collapsed in place keeps only the single
addresses in front of the first block. -/
theorem C27_ipv6_exact (insitu : Bool) (nm : String) (objs : List Host)
    (hf : FlatObjects (.group nm objs)) (hall : ∀ x, Leaf (.group nm objs) x → IsItemOf .v6 x)
    (hc : CollapseCall insitu objs) :
    ∃ nets : List Net, (∀ n ∈ nets, n.Valid ∧ n.ver = .v6) ∧ nets.Pairwise Below ∧
      Aggregated .v6 nets ∧ (∀ x, CoversNets nets x ↔ Covers (.group nm objs) x) ∧
      (collapse insitu objs).2 = (if ∀ n ∈ nets, n.plen = 128 then .ok (nets.map memberOf)
        else .error .value) ∧
      ((∀ o ∈ objs, ∃ n, o = .net n) → (collapse insitu objs).1 =
        (nets.takeWhile (fun n => decide (n.plen = 128))).map memberOf) ∧
      ((∃ o ∈ objs, ∀ n, o ≠ .net n) → (collapse insitu objs).1 = objs) := by
  obtain ⟨items, i1, i2, i3⟩ := collapse_reduces hf hall hc
  have hit : ∀ o ∈ items, IsItem o := fun o ho => ⟨_, i1 o ho⟩
  obtain ⟨ws, e, w1, w2, w3⟩ := addressesOf_ok hit
  have hok : ∀ it ∈ ws, it.Ok .v6 := by
    intro it hi
    obtain ⟨v, hv⟩ := w1 it hi
    cases v with
    | v6 => exact hv
    | v4 =>
      obtain ⟨o, ho, h4⟩ := (w2 _).1 ⟨it, hi, hv⟩
      have h6 := i1 o ho
      cases o <;> simp only [IsItemOf] at h4 h6
      all_goals exact absurd (h4.2.symm.trans h6.2) (by simp)
  obtain ⟨nets, c1, c2, c3, c4, c5⟩ := collapseAddresses_ok hok
  have hsingle : ∀ n ∈ nets, single n = decide (n.plen = 128) := by
    intro n hn; simp [single, (c2 n hn).2, Ver.width]
  have htake : ∀ l : List Net, (∀ n ∈ l, single n = decide (n.plen = 128)) →
      l.takeWhile single = l.takeWhile (fun n => decide (n.plen = 128)) := by
    intro l
    induction l with
    | nil => simp
    | cons a t ih =>
      intro h
      rw [List.takeWhile_cons, List.takeWhile_cons, h a (by simp), ih (fun n hn => h n (by simp [hn]))]
  have hcm : collapseMembers items = ((nets.takeWhile single).map memberOf,
      if nets.all single then .ok () else .error .value) := by
    unfold collapseMembers
    simp only [not_any_of_items hit, Bool.false_eq_true, if_false, e, c1]
    rw [rebuildLoop_v6 _ _ c2]; simp
  obtain ⟨r1, r2, r3⟩ := i3 _ _ hcm
  refine ⟨nets, c2, c3, c4, ?_, ?_, ?_, r3⟩
  · intro x
    rw [c5, w3, covers_leaf]
    constructor
    · rintro ⟨o, ho, hx⟩; exact ⟨o, (i2 o).1 ho, hx⟩
    · rintro ⟨o, ho, hx⟩; exact ⟨o, (i2 o).2 ho, hx⟩
  · rw [r1]
    have hall' : nets.all single = true ↔ ∀ n ∈ nets, n.plen = 128 := by
      rw [List.all_eq_true]
      constructor
      · intro h n hn; have := h n hn; rw [hsingle n hn] at this; simpa using this
      · intro h n hn; rw [hsingle n hn]; simpa using h n hn
    by_cases ha : nets.all single = true
    · rw [if_pos ha, if_pos (hall'.1 ha)]
      have : nets.takeWhile single = nets := by
        have : ∀ l : List Net, l.all single = true → l.takeWhile single = l := by
          intro l
          induction l with
          | nil => simp
          | cons a t ih =>
            intro h
            rw [List.all_cons, Bool.and_eq_true] at h
            rw [List.takeWhile_cons, h.1, if_pos rfl, ih h.2]
        exact this nets ha
      rw [this]; rfl
    · rw [if_neg ha, if_neg (fun h => ha (hall'.2 h))]; rfl
  · intro h; rw [r2 h, htake nets hsingle]

/-- A mixed group and an IPv6 group that meet the hypotheses. -/
theorem C27_mixed_sample :
    (collapse false [.host ⟨.v4, 1⟩, .net ⟨.v6, 0, 64⟩]).2 = .error .type ∧
    (collapse true [.net ⟨.v4, 0, 8⟩, .net ⟨.v6, 0, 64⟩]) = ([], .error .type) := by
  have hleaf : ∀ (objs : List Host) (x : Host), (∀ o ∈ objs, (∃ n, o = .net n) ∨ ∃ a, o = .host a) →
      (Leaf (.group "g" objs) x ↔ x ∈ objs) := by
    intro objs x ho
    rw [leaf_group]
    constructor
    · rintro ⟨h, hm, hl⟩
      rcases ho h hm with ⟨n, rfl⟩ | ⟨a, rfl⟩ <;> (cases hl; exact hm)
    · intro hx
      refine ⟨x, hx, ?_⟩
      rcases ho x hx with ⟨n, rfl⟩ | ⟨a, rfl⟩
      · exact .net
      · exact .host
  have hflat : ∀ objs : List Host, (∀ o ∈ objs, (∃ n, o = .net n) ∨ ∃ a, o = .host a) →
      FlatObjects (.group "g" objs) := by
    intro objs ho q l hg
    cases hg with
    | group hm hg => rcases ho _ hm with ⟨n, rfl⟩ | ⟨a, rfl⟩ <;> cases hg
  refine ⟨?_, ?_⟩
  · have hk : ∀ o ∈ [Host.host ⟨.v4, 1⟩, .net ⟨.v6, 0, 64⟩], (∃ n, o = .net n) ∨ ∃ a, o = .host a := by
      simp
    refine (C27_violated_mixed_all false "g" [.host ⟨.v4, 1⟩, .net ⟨.v6, 0, 64⟩] (hflat _ hk) ?_
      (.inr ⟨rfl, .host ⟨.v4, 1⟩, by simp, by simp, by simp⟩) ?_ ?_).1
    · intro x hx
      rw [hleaf _ x hk] at hx
      simp only [List.mem_cons, List.not_mem_nil, or_false] at hx
      rcases hx with rfl | rfl
      · exact ⟨.v4, by decide +kernel, rfl⟩
      · exact ⟨.v6, by decide +kernel, rfl⟩
    · exact ⟨.host ⟨.v4, 1⟩, (hleaf _ _ hk).2 (by simp), by decide +kernel, rfl⟩
    · exact ⟨.net ⟨.v6, 0, 64⟩, (hleaf _ _ hk).2 (by simp), by decide +kernel, rfl⟩
  · rfl

end Acltk
