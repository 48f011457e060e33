import Verif.Lemmas.CollapseMain
import Verif.Props.Groups
import Verif.Props.NetText
/-!
# C26, C27: collapsing network groups
-/
namespace Acltk

/-- How a network of the collapsed list appears in the group: a single address as host. -/
def memberOf (n : Net) : Host := if n.plen = n.ver.width then .host n.networkAddress else .net n

/-! ## rebuilding the members -/

theorem size_gt_one {n : Net} (h : n.plen ≤ n.ver.width) : 2 ^ (n.ver.width - n.plen) > 1 ↔ n.plen ≠ n.ver.width := by
  constructor
  · intro h1 he; rw [he, Nat.sub_self] at h1; simp at h1
  · intro h1
    have : 1 ≤ n.ver.width - n.plen := by omega
    have := Nat.pow_le_pow_right (n := 2) (by omega) this
    omega

theorem mkNetwork_netmask {n : Net} (h : n.Valid) (hv : n.ver = .v4) :
    mkNetwork n.networkAddress.text (Addr.text ⟨n.ver, n.netmask⟩) = .ok n := by
  have hval : n.networkAddress.Valid := h.2.1
  rw [mkNetwork_of_address (ipAddress_text hval)]
  have hmask : n.netmask < 2 ^ 32 := by
    rw [netmask_eq h, hv]
    have := Nat.two_pow_pos n.k
    show 2 ^ 32 - _ < 2 ^ 32
    omega
  have ht : Addr.text ⟨n.ver, n.netmask⟩ = fmtV4 n.netmask := by rw [hv]; rfl
  have hver : n.networkAddress.ver = .v4 := hv
  have hp : prefixFromInt .v4 n.netmask = some n.plen := by
    rw [prefixFromInt_iff hmask]
    have h1 := h.1
    rw [hv] at h1
    refine ⟨h1, ?_⟩
    have := netmask_eq h
    unfold Net.k at this
    rw [hv] at this
    exact this
  rw [ht, hver, makeNetmask_v4_dotted hmask, hp]
  simp only
  congr 1
  unfold mkNet
  have hm := h.2.2
  unfold Net.netmask at hm
  have e : n.networkAddress.ver = n.ver := rfl
  have e2 : n.networkAddress.ip = n.addr := rfl
  rw [e, e2, hm]

theorem rebuildLoop_v4 : ∀ (l : List Net) (acc : List Host), (∀ n ∈ l, n.Valid ∧ n.ver = .v4) →
    rebuildLoop l acc = (acc ++ l.map memberOf, .ok ()) := by
  intro l
  induction l with
  | nil => intro acc _; simp [rebuildLoop]
  | cons n t ih =>
    intro acc h
    obtain ⟨hn, hv⟩ := h n (by simp)
    have ht := fun m hm => h m (List.mem_cons_of_mem n hm)
    unfold rebuildLoop
    by_cases hp : n.plen = n.ver.width
    · rw [if_neg (by rw [size_gt_one hn.1]; simpa using hp)]
      have hval : n.networkAddress.Valid := hn.2.1
      rw [ipAddress_text hval]
      simp only
      rw [ih _ ht]
      simp [memberOf, hp]
    · rw [if_pos ((size_gt_one hn.1).2 hp), mkNetwork_netmask hn hv]
      simp only
      rw [ih _ ht]
      simp [memberOf, hp]

theorem covers_memberOf {n : Net} (h : n.Valid) (x : Addr) : Covers (memberOf n) x ↔ n.Denotes x := by
  unfold memberOf
  split
  · rename_i hp; rw [covers_host, net_single h hp]
  · exact covers_net

/-- An IPv4 network or host. -/
def IsV4Item : Host → Prop
  | .net n => n.Valid ∧ n.ver = .v4
  | .host a => a.Valid ∧ a.ver = .v4
  | _ => False

theorem collapseMembers_v4 {objs : List Host} (h : ∀ o ∈ objs, IsV4Item o) :
    ∃ nets : List Net, collapseMembers objs = (nets.map memberOf, .ok ()) ∧
      (∀ n ∈ nets, n.Valid ∧ n.ver = .v4) ∧ nets.Pairwise Below ∧ Aggregated .v4 nets ∧
      ∀ x, CoversNets nets x ↔ ∃ o ∈ objs, Covers o x := by
  have hany : objs.any Host.isAnyKind = false := by
    rw [List.any_eq_false]
    intro o ho
    have := h o ho
    cases o <;> simp [IsV4Item] at this <;> simp [Host.isAnyKind, Host.isNetworkAny, Host.isNetworkAny4, Host.isNetworkAny6]
  have hitems : ∃ items, addressesOf objs = .ok items ∧ (∀ it ∈ items, it.Ok .v4) ∧
      ∀ x, (∃ it ∈ items, it.Covers x) ↔ ∃ o ∈ objs, Covers o x := by
    clear hany
    induction objs with
    | nil => exact ⟨[], rfl, by simp, by simp⟩
    | cons o t ih =>
      obtain ⟨items, h1, h2, h3⟩ := ih (fun o ho => h o (by simp [ho]))
      have ho := h o (by simp)
      cases o with
      | net n =>
        refine ⟨.net n :: items, by simp [addressesOf, h1], ?_, ?_⟩
        · intro it hit
          rcases List.mem_cons.1 hit with rfl | hit
          · exact ho
          · exact h2 it hit
        · intro x
          simp only [List.mem_cons, exists_eq_or_imp, h3, covers_net]; rfl
      | host a =>
        refine ⟨.addr a :: items, by simp [addressesOf, h1], ?_, ?_⟩
        · intro it hit
          rcases List.mem_cons.1 hit with rfl | hit
          · exact ho
          · exact h2 it hit
        · intro x
          simp only [List.mem_cons, exists_eq_or_imp, h3, covers_host]; rfl
      | _ => exact ho.elim
  obtain ⟨items, i1, i2, i3⟩ := hitems
  obtain ⟨nets, c1, c2, c3, c4, c5⟩ := collapseAddresses_ok i2
  refine ⟨nets, ?_, c2, c3, c4, fun x => (c5 x).trans (i3 x)⟩
  unfold collapseMembers
  simp only [hany, Bool.false_eq_true, if_false, i1, c1]
  rw [rebuildLoop_v4 _ _ c2]; simp

/-! ## C26 -/

/-- Every address or network below the group is IPv4, and nothing else is in it. -/
def AllV4 (nm : String) (objs : List Host) : Prop := ∀ x, Leaf (.group nm objs) x → IsV4Item x

/-- The calls of `collapse` that get as far as collapsing: the members are networks only, or
`insitu=False` and there is at least one host or nested group (which triggers expansion). -/
def CollapseCall (insitu : Bool) (objs : List Host) : Prop :=
  (∀ o ∈ objs, ∃ n, o = .net n) ∨ (insitu = false ∧ ∃ o ∈ objs, (∀ n, o ≠ .net n) ∧ ∀ nm l, o ≠ .obj nm l)

theorem collapse_cases {insitu : Bool} {nm : String} {objs : List Host} (hf : FlatObjects (.group nm objs))
    (hall : AllV4 nm objs) (hc : CollapseCall insitu objs) :
    ∃ items : List Host, (∀ o ∈ items, IsV4Item o) ∧ (∀ x, (∃ o ∈ items, Covers o x) ↔ Covers (.group nm objs) x) ∧
      ∀ l, collapseMembers items = (l, .ok ()) →
        (collapse insitu objs).2 = .ok l ∧
        ((∀ o ∈ objs, ∃ n, o = .net n) → (collapse insitu objs).1 = l) ∧
        ((∃ o ∈ objs, ∀ n, o ≠ .net n) → (collapse insitu objs).1 = objs) := by
  by_cases hn : ∀ o ∈ objs, ∃ n, o = .net n
  · refine ⟨objs, ?_, fun x => covers_group.symm, ?_⟩
    · intro o ho
      obtain ⟨n, rfl⟩ := hn o ho
      exact hall _ (.group ho .net)
    · intro l hl
      have hany : objs.any (fun o => !o.isNetOrObj) = false := by
        rw [List.any_eq_false]; intro o ho
        obtain ⟨n, rfl⟩ := hn o ho; simp [Host.isNetOrObj]
      unfold collapse
      rw [if_neg (by simp [hany]), hl]
      refine ⟨rfl, fun _ => rfl, ?_⟩
      rintro ⟨o, ho, hne⟩
      obtain ⟨n, rfl⟩ := hn o ho
      exact absurd rfl (hne n)
  · rcases hc with h | ⟨hi, o, ho, h1, h2⟩
    · exact absurd h hn
    · subst hi
      obtain ⟨l, _, hm, _, he, _⟩ := C23_network_expand nm objs hf
      refine ⟨l, fun o ho => hall o ((hm o).1 ho), ?_, ?_⟩
      · intro x
        rw [covers_leaf]
        constructor
        · rintro ⟨o, ho, hx⟩; exact ⟨o, (hm o).1 ho, hx⟩
        · rintro ⟨y, hy, hx⟩; exact ⟨y, (hm y).2 hy, hx⟩
      · intro out hout
        have hany : objs.any (fun o => !o.isNetOrObj) = true := by
          rw [List.any_eq_true]
          refine ⟨o, ho, ?_⟩
          cases o <;> first | exact absurd rfl (h1 _) | exact absurd rfl (h2 _ _) | rfl
        unfold collapse
        rw [if_pos hany, if_neg (by simp), he]
        simp only [hout]
        exact ⟨trivial, fun h => absurd h hn, fun _ => trivial⟩

/-- **C26** Collapsing a group whose leaves are IPv4 networks and hosts returns a group with exactly
the same addresses: its members come from a list of networks that is sorted, pairwise disjoint and
fully aggregated (every network whose addresses are all covered lies in one member); no shorter list
of networks covers the same addresses.  Single addresses become hosts. -/
theorem C26_collapse_v4 (insitu : Bool) (nm : String) (objs : List Host)
    (hf : FlatObjects (.group nm objs)) (hall : AllV4 nm objs) (hc : CollapseCall insitu objs) :
    ∃ nets : List Net, (collapse insitu objs).2 = .ok (nets.map memberOf) ∧
      (∀ n ∈ nets, n.Valid ∧ n.ver = .v4) ∧ nets.Pairwise Below ∧ Aggregated .v4 nets ∧
      (∀ x, Covers (.group nm (nets.map memberOf)) x ↔ Covers (.group nm objs) x) ∧
      (∀ other : List Net, (∀ n ∈ other, n.Valid ∧ n.ver = .v4) →
        (∀ x, CoversNets other x ↔ Covers (.group nm objs) x) → nets.length ≤ other.length) ∧
      ((∀ o ∈ objs, ∃ n, o = .net n) → (collapse insitu objs).1 = nets.map memberOf) ∧
      ((∃ o ∈ objs, ∀ n, o ≠ .net n) → (collapse insitu objs).1 = objs) := by
  obtain ⟨items, i1, i2, i3⟩ := collapse_cases hf hall hc
  obtain ⟨nets, n1, n2, n3, n4, n5⟩ := collapseMembers_v4 i1
  have hcov : ∀ x, CoversNets nets x ↔ Covers (.group nm objs) x := fun x => (n5 x).trans (i2 x)
  refine ⟨nets, (i3 _ n1).1, n2, n3, n4, fun x => ?_, fun other h1 h2 => ?_, (i3 _ n1).2.1, (i3 _ n1).2.2⟩
  · rw [← hcov, covers_group]
    unfold CoversNets
    simp only [List.mem_map]
    constructor
    · rintro ⟨_, ⟨n, hn, rfl⟩, hx⟩; exact ⟨n, hn, (covers_memberOf (n2 n hn).1 x).1 hx⟩
    · rintro ⟨n, hn, hx⟩; exact ⟨_, ⟨n, hn, rfl⟩, (covers_memberOf (n2 n hn).1 x).2 hx⟩
  · exact canonical_shortest n2 h1 n3 n4 (fun x => (hcov x).trans (h2 x).symm)

/-- **C26** The result depends only on the addresses of the group: neither the order of the members
nor duplicates nor the way they are nested matters. -/
theorem C26_order_and_duplicates_irrelevant (insitu insitu' : Bool) (nm nm' : String) (objs objs' : List Host)
    (hf : FlatObjects (.group nm objs)) (hall : AllV4 nm objs) (hc : CollapseCall insitu objs)
    (hf' : FlatObjects (.group nm' objs')) (hall' : AllV4 nm' objs') (hc' : CollapseCall insitu' objs')
    (heq : ∀ x, Covers (.group nm objs) x ↔ Covers (.group nm' objs') x) :
    (collapse insitu objs).2 = (collapse insitu' objs').2 := by
  obtain ⟨n, a1, a2, a3, a4, a5, _⟩ := C26_collapse_v4 insitu nm objs hf hall hc
  obtain ⟨m, b1, b2, b3, b4, b5, _⟩ := C26_collapse_v4 insitu' nm' objs' hf' hall' hc'
  have key : ∀ {nets : List Net} {q : String}, (∀ n ∈ nets, n.Valid ∧ n.ver = Ver.v4) → ∀ x,
      (Covers (.group q (nets.map memberOf)) x ↔ CoversNets nets x) := by
    intro nets q hv x
    rw [covers_group]
    unfold CoversNets
    simp only [List.mem_map]
    constructor
    · rintro ⟨_, ⟨n, hn, rfl⟩, hx⟩; exact ⟨n, hn, (covers_memberOf (hv n hn).1 x).1 hx⟩
    · rintro ⟨n, hn, hx⟩; exact ⟨_, ⟨n, hn, rfl⟩, (covers_memberOf (hv n hn).1 x).2 hx⟩
  rw [a1, b1, canonical_unique a2 b2 a3 b3 a4 b4]
  intro x
  rw [← key a2 x (q := nm), ← key b2 x (q := nm'), a5, b5, heq]

theorem leaf_memberOf (n : Net) : Leaf (memberOf n) (memberOf n) := by
  unfold memberOf; split
  · exact .host
  · exact .net

/-- **C26** Collapsing a collapsed group (as a new group) gives the same members again. -/
theorem C26_idempotent (insitu : Bool) (nm : String) (objs : List Host) (out : List Host)
    (hf : FlatObjects (.group nm objs)) (hall : AllV4 nm objs) (hc : CollapseCall insitu objs)
    (hout : (collapse insitu objs).2 = .ok out) : (collapse false out).2 = .ok out := by
  obtain ⟨nets, a1, a2, a3, a4, a5, _⟩ := C26_collapse_v4 insitu nm objs hf hall hc
  rw [hout] at a1
  cases a1
  have hleaf : ∀ x, Leaf (.group nm (nets.map memberOf)) x → ∃ n ∈ nets, x = memberOf n := by
    intro x hx
    rw [leaf_group] at hx
    obtain ⟨h, hm, hl⟩ := hx
    obtain ⟨n, hn, rfl⟩ := List.mem_map.1 hm
    exact ⟨n, hn, isLeaf_unique (leaf_memberOf n) hl⟩
  have hf2 : FlatObjects (.group nm (nets.map memberOf)) := by
    intro q l hg
    cases hg with
    | group hm hg =>
      obtain ⟨n, hn, rfl⟩ := List.mem_map.1 hm
      have := leaf_memberOf n
      unfold memberOf at hg; split at hg <;> cases hg
  have hall2 : AllV4 nm (nets.map memberOf) := by
    intro x hx
    obtain ⟨n, hn, rfl⟩ := hleaf x hx
    unfold memberOf
    split
    · exact ⟨(a2 n hn).1.2.1, (a2 n hn).2⟩
    · exact a2 n hn
  have hc2 : CollapseCall false (nets.map memberOf) := by
    by_cases h : ∀ o ∈ nets.map memberOf, ∃ n, o = .net n
    · exact .inl h
    · right
      refine ⟨rfl, ?_⟩
      simp only [Classical.not_forall] at h
      obtain ⟨o, ho, hne⟩ := h
      refine ⟨o, ho, fun n e => hne ⟨n, e⟩, ?_⟩
      obtain ⟨n, hn, rfl⟩ := List.mem_map.1 ho
      unfold memberOf; split <;> simp
  have := C26_order_and_duplicates_irrelevant false insitu nm nm _ objs hf2 hall2 hc2 hf hall hc a5
  rw [this, hout]

/-- The hypotheses are met and the result is as expected: 10.0.0.0/25, 10.0.0.128/25 and a host
inside become 10.0.0.0/24. -/
example : AllV4 "g" [.net ⟨.v4, 0x0A000080, 25⟩, .host ⟨.v4, 0x0A000003⟩, .net ⟨.v4, 0x0A000000, 25⟩] ∧
    CollapseCall false [.net ⟨.v4, 0x0A000080, 25⟩, .host ⟨.v4, 0x0A000003⟩, .net ⟨.v4, 0x0A000000, 25⟩] := by
  refine ⟨?_, .inr ⟨rfl, .host ⟨.v4, 0x0A000003⟩, by simp, by simp, by simp⟩⟩
  intro x hx
  rw [leaf_group] at hx
  obtain ⟨h, hm, hl⟩ := hx
  simp only [List.mem_cons, List.not_mem_nil, or_false] at hm
  rcases hm with rfl | rfl | rfl <;> cases hl <;> exact ⟨by decide +kernel, rfl⟩
example : collapseAddresses [.net ⟨.v4, 0x0A000080, 25⟩, .addr ⟨.v4, 0x0A000003⟩, .net ⟨.v4, 0x0A000000, 25⟩] =
    .ok [⟨.v4, 0x0A000000, 24⟩] := by
  have h1 : splitItems [.net ⟨.v4, 0x0A000080, 25⟩, .addr ⟨.v4, 0x0A000003⟩, .net ⟨.v4, 0x0A000000, 25⟩] [] [] =
      .ok ([⟨.v4, 0x0A000003⟩], [⟨.v4, 0x0A000080, 25⟩, ⟨.v4, 0x0A000000, 25⟩]) := by decide +kernel
  have h2 : summarizeAll .v4 (findRanges 0x0A000003 0x0A000003 []) = .ok [⟨.v4, 0x0A000003, 32⟩] := by decide +kernel
  have h3 : mergeLoop [⟨.v4, 0x0A000000, 25⟩, ⟨.v4, 0x0A000080, 25⟩, ⟨.v4, 0x0A000003, 32⟩] [] =
      [(⟨.v4, 0x0A000000, 23⟩, ⟨.v4, 0x0A000000, 24⟩), (⟨.v4, 0x0A000002, 31⟩, ⟨.v4, 0x0A000003, 32⟩)] := by decide +kernel
  have h4 : [(⟨.v4, 0x0A000000, 24⟩ : Net), ⟨.v4, 0x0A000003, 32⟩].mergeSort netLe =
      [⟨.v4, 0x0A000000, 24⟩, ⟨.v4, 0x0A000003, 32⟩] := List.mergeSort_of_pairwise (by decide +kernel)
  unfold collapseAddresses summarizeIps collapseInternal
  simp only [h1, dedup, List.not_mem_nil, if_false, List.mergeSort_singleton, List.map_nil, h2, List.cons_append,
    List.nil_append, List.reverse_cons, List.reverse_nil, h3, List.map_cons, h4]
  decide +kernel

/-! ## C27 -/

theorem fmtV6_colon {n : Nat} (h : n < 2 ^ 128) : ':' ∈ fmtV6 n := by
  by_cases hc : ':' ∈ fmtV6 n
  · exact hc
  · have := parseV6_fmtV6 h
    rw [parseV6_no_colon hc] at this; cases this

theorem makeNetmask_v6_text {q : Nat} (h : q < 2 ^ 128) : makeNetmask .v6 (fmtV6 q) = none := by
  unfold makeNetmask
  cases hp : prefixFromPrefixString .v6 (fmtV6 q) with
  | none => rfl
  | some n =>
    have := (prefixString_iff.1 hp).1
    unfold isDigits at this
    rw [Bool.and_eq_true, List.all_eq_true] at this
    exact absurd (this.2 _ (fmtV6_colon h)) (by decide)

theorem netmask_lt {n : Net} (h : n.Valid) : n.netmask < 2 ^ n.ver.width := by
  rw [netmask_eq h]
  have := Nat.two_pow_pos n.k
  have := Nat.two_pow_pos n.ver.width
  omega

theorem mkNetwork_netmask_v6 {n : Net} (h : n.Valid) (hv : n.ver = .v6) :
    mkNetwork n.networkAddress.text (Addr.text ⟨n.ver, n.netmask⟩) = .error .value := by
  have hval : n.networkAddress.Valid := h.2.1
  rw [mkNetwork_of_address (ipAddress_text hval)]
  have ht : Addr.text ⟨n.ver, n.netmask⟩ = fmtV6 n.netmask := by rw [hv]; rfl
  have hver : n.networkAddress.ver = .v6 := hv
  have := netmask_lt h
  rw [hv] at this
  rw [ht, hver, makeNetmask_v6_text this]

theorem collapseInternal_single {n : Net} : collapseInternal [n] = .ok [n] := by
  have h1 : mergeLoop [n] [] = [(supernet n, n)] := by
    unfold mergeLoop
    simp only [dictGet, List.find?_nil, Option.map_none, List.nil_append]
    unfold mergeLoop; rfl
  unfold collapseInternal
  simp only [List.reverse_cons, List.reverse_nil, List.nil_append, h1, List.map_cons, List.map_nil]
  rw [if_neg (by simp)]
  simp [skipSubsumed, List.mergeSort]

/-- **C27 is violated** by every IPv6 group: collapsing in place a group whose only member is an
IPv6 network of more than one address raises ValueError and leaves the group empty … -/
theorem C27_violated_ipv6 (n : Net) (h : n.Valid) (hv : n.ver = .v6) (hp : n.plen < 128) :
    collapse true [.net n] = ([], .error .value) := by
  have hw : n.ver.width = 128 := by rw [hv]; rfl
  have hca : collapseAddresses [.net n] = .ok [n] := by
    unfold collapseAddresses
    have : splitItems [.net n] [] [] = .ok ([], [n]) := by
      simp only [splitItems]
      rw [if_neg (by omega)]; simp
    rw [this]
    have h2 : summarizeIps [] = .ok [] := by simp [summarizeIps, dedup]
    simp only [h2, List.nil_append]
    exact collapseInternal_single
  have hr : rebuildLoop [n] [] = ([], .error .value) := by
    unfold rebuildLoop
    rw [if_pos ((size_gt_one h.1).2 (by omega)), mkNetwork_netmask_v6 h hv]
  have hcm : collapseMembers [.net n] = ([], .error .value) := by
    unfold collapseMembers
    simp only [List.any_cons, List.any_nil, Host.isAnyKind, Host.isNetworkAny, Host.isNetworkAny4, Host.isNetworkAny6,
      Bool.or_self, Bool.false_eq_true, if_false, addressesOf, hca, hr]
  unfold collapse
  simp [Host.isNetOrObj, hcm]

/-- … so does mixing versions (TypeError) … -/
theorem C27_violated_mixed :
    collapse true [.net ⟨.v4, 0x0A000000, 8⟩, .net ⟨.v6, 0, 64⟩] = ([], .error .type) := rfl

theorem collapseAddresses_nil : collapseAddresses [] = .ok [] := by
  have h1 : mergeLoop [] [] = [] := by unfold mergeLoop; rfl
  simp [collapseAddresses, splitItems, summarizeIps, dedup, collapseInternal, h1, skipSubsumed]

/-- … and a group containing `any` collapses to a group without it. -/
theorem C27_violated_any : collapse false [.any] = ([.any], .ok []) ∧
    ∃ x, Covers (.group "g" [.any]) x ∧ ¬ Covers (.group "g" []) x :=
  ⟨by
    unfold collapse
    simp [Host.isNetOrObj, netExpand, expandL, expandOne, replaceObjs, collapseMembers, Host.isAnyKind,
      Host.isNetworkAny, addressesOf, collapseAddresses_nil, rebuildLoop],
   ⟨⟨.v4, 0⟩, .group (h := .any) (by simp) (.any (by decide)), by rw [covers_group]; simp⟩⟩

/-- **C27, what holds**: groups of IPv4 networks and hosts lose nothing; a call that is refused
because expansion is required changes nothing; a call with `insitu=False` never touches a group
that has a host, group or `any` member, whatever the outcome.  Missing: IPv6 blocks, mixed versions
and `any` members, where the code does lose members (`C27_violated_…`). -/
theorem C27_keeps_or_rejects_partial (nm : String) (objs : List Host) :
    (∀ insitu, FlatObjects (.group nm objs) → AllV4 nm objs → CollapseCall insitu objs →
      ∃ out, (collapse insitu objs).2 = .ok out ∧ ∀ x, Covers (.group nm out) x ↔ Covers (.group nm objs) x) ∧
    ((∃ o ∈ objs, (∀ n, o ≠ .net n) ∧ ∀ q l, o ≠ .obj q l) →
      collapse true objs = (objs, .error .value) ∧ (collapse false objs).1 = objs) := by
  constructor
  · intro insitu hf hall hc
    obtain ⟨nets, h1, _, _, _, h2, _⟩ := C26_collapse_v4 insitu nm objs hf hall hc
    exact ⟨_, h1, h2⟩
  · rintro ⟨o, ho, h1, h2⟩
    have hany : objs.any (fun o => !o.isNetOrObj) = true := by
      rw [List.any_eq_true]
      refine ⟨o, ho, ?_⟩
      cases o <;> first | exact absurd rfl (h1 _) | exact absurd rfl (h2 _ _) | rfl
    unfold collapse
    simp only [hany, if_true]
    refine ⟨trivial, ?_⟩
    simp only [Bool.false_eq_true, if_false, netExpand]
    split <;> rfl

end Acltk
