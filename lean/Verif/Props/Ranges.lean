import Verif.Lemmas.Summarize
import Verif.Props.NetText
/-!
# C21, C22: range objects and wildcard enumeration
-/
namespace Acltk

/-! ## C21 -/

/-- **C21** A range object from `start` to `stop` (texts denoting `a` and `b`, same version,
`a ≤ b`) gets a list of networks which cover exactly the addresses from `a` to `b`, in ascending
order and pairwise disjoint; matching the object therefore means matching the range (`Covers`). -/
theorem C21_range_covers (start stop : List Char) (a b : Addr)
    (ha : ipAddress start = .ok a) (hb : ipAddress stop = .ok b) (hv : a.ver = b.ver) (hle : a.ip ≤ b.ip) :
    ∃ nets : List Net, objAddresses (.range start stop) = .ok (nets.map .net) ∧
      (∀ n ∈ nets, n.Valid) ∧
      nets.Pairwise Below ∧
      (∀ x, CoversNets nets x ↔ InRange a b x) ∧
      ∀ (name : String) x, Covers (.obj name (nets.map .net)) x ↔ InRange a b x := by
  have hbv := ipAddress_valid hb
  have hl : b.ip < 2 ^ a.ver.width := by rw [hv]; exact hbv
  obtain ⟨l, h1, h2, h3, h4⟩ := summarizeFrom_ok a.ver b.ip hl _ a.ip (Nat.le_refl _) (by omega)
  refine ⟨l, ?_, fun n hn => (h2 n hn).1, h3, h4, ?_⟩
  · simp only [objAddresses, ha, hb, summarizeRange]
    rw [if_neg (by simpa using hv), if_neg (by omega), h1]
    simp only
    exact rebuildNets_ok (fun n hn => (h2 n hn).1)
  · intro name x
    rw [covers_obj]
    have : (∃ h ∈ l.map Host.net, Covers h x) ↔ CoversNets l x := by
      unfold CoversNets
      simp only [List.mem_map]
      constructor
      · rintro ⟨_, ⟨n, hn, rfl⟩, hc⟩; exact ⟨n, hn, covers_net.1 hc⟩
      · rintro ⟨n, hn, hc⟩; exact ⟨_, ⟨n, hn, rfl⟩, covers_net.2 hc⟩
    rw [this, h4]; rfl

/-- **C21** A range with start above stop is rejected with ValueError, one with different versions
with TypeError, one with an end that is no address with ValueError. -/
theorem C21_range_rejects (start stop : List Char) (a b : Addr)
    (ha : ipAddress start = .ok a) (hb : ipAddress stop = .ok b) :
    (a.ver = b.ver → a.ip > b.ip → objAddresses (.range start stop) = .error .value) ∧
    (a.ver ≠ b.ver → objAddresses (.range start stop) = .error .type) := by
  constructor
  · intro hv hgt
    simp only [objAddresses, ha, hb, summarizeRange]
    rw [if_neg (by simpa using hv), if_pos hgt]
  · intro hv
    simp only [objAddresses, ha, hb, summarizeRange]
    rw [if_pos hv]

/-- The other object types: a host object denotes its address, a subnet object the addresses that
agree on the mask, an fqdn object everything (or everything of one version), and an object without
type or with type `nat` nothing. -/
theorem C21_other_object_types (name : String) (address mask : List Char) (a : Addr) (n : Nat)
    (ha : ipAddress address = .ok a) (hm : MaskText a.ver mask n) :
    (∃ l, objAddresses (.host address) = .ok l ∧ ∀ x, Covers (.obj name l) x ↔ x = a) ∧
    (∃ l, objAddresses (.subnet address mask) = .ok l ∧ ∀ x, Covers (.obj name l) x ↔ AgreeTop n x a) ∧
    (∃ l, objAddresses (.fqdn none) = .ok l ∧ ∀ x, Covers (.obj name l) x ↔ x.Valid) ∧
    (∃ l, objAddresses (.fqdn (some "v4")) = .ok l ∧ ∀ x, Covers (.obj name l) x ↔ x.ver = .v4 ∧ x.Valid) ∧
    (∃ l, objAddresses (.fqdn (some "v6")) = .ok l ∧ ∀ x, Covers (.obj name l) x ↔ x.ver = .v6 ∧ x.Valid) ∧
    (∃ l, objAddresses .empty = .ok l ∧ ∀ x, ¬ Covers (.obj name l) x) ∧
    (∃ l, objAddresses .nat = .ok l ∧ ∀ x, ¬ Covers (.obj name l) x) := by
  obtain ⟨net, h1, _, _, h2, _⟩ := C19_network_denotes _ _ _ _ ha hm
  refine ⟨⟨[.host a], by simp [objAddresses, ha], ?_⟩, ⟨[.net net], by simp [objAddresses, h1], ?_⟩,
    ⟨[.any], rfl, ?_⟩, ⟨[.any4], rfl, ?_⟩, ⟨[.any6], rfl, ?_⟩, ⟨[], rfl, ?_⟩, ⟨[], rfl, ?_⟩⟩
  · intro x; rw [covers_obj]; simp [covers_host]
  · intro x; rw [covers_obj]; simp [covers_net, h2]
  · intro x; rw [covers_obj]; simp [covers_any]
  · intro x; rw [covers_obj]; simp [covers_any4]
  · intro x; rw [covers_obj]; simp [covers_any6]
  · intro x; rw [covers_obj]; simp
  · intro x; rw [covers_obj]; simp

/-- The hypotheses are met: 192.0.2.0 – 192.0.2.130 becomes three networks; so does an IPv6 range. -/
example : objAddresses (.range "192.0.2.0".toList "192.0.2.130".toList) =
    .ok [.net ⟨.v4, 0xC0000200, 25⟩, .net ⟨.v4, 0xC0000280, 31⟩, .net ⟨.v4, 0xC0000282, 32⟩] := by
  have h1 : ipAddress "192.0.2.0".toList = .ok ⟨.v4, 0xC0000200⟩ := by decide +kernel
  have h2 : ipAddress "192.0.2.130".toList = .ok ⟨.v4, 0xC0000282⟩ := by decide +kernel
  have h3 : summarizeRange ⟨.v4, 0xC0000200⟩ ⟨.v4, 0xC0000282⟩ =
      .ok [⟨.v4, 0xC0000200, 25⟩, ⟨.v4, 0xC0000280, 31⟩, ⟨.v4, 0xC0000282, 32⟩] := by decide +kernel
  simp only [objAddresses, h1, h2, h3]
  exact rebuildNets_ok (by decide +kernel)
example : ipAddress "2001:db8::".toList = .ok ⟨.v6, 0x20010db8 <<< 96⟩ ∧
    ipAddress "2001:db8::5".toList = .ok ⟨.v6, 0x20010db8 <<< 96 + 5⟩ := by decide +kernel

/-! ## C22 -/

/-- `x` is one of the returned addresses or lies in one of the returned networks. -/
def ItemsCover (l : List WItem) (x : Addr) : Prop :=
  (∃ a, WItem.addr a ∈ l ∧ x = a) ∨ (∃ n, WItem.net n ∈ l ∧ n.Denotes x)

theorem itemsCover_iff {l : List WItem} {x : Addr} : ItemsCover l x ↔ ∃ it ∈ l, it.Covers x := by
  unfold ItemsCover
  constructor
  · rintro (⟨a, h, rfl⟩ | ⟨n, h, hd⟩)
    · exact ⟨_, h, rfl⟩
    · exact ⟨_, h, hd⟩
  · rintro ⟨it, h, hc⟩
    cases it with
    | addr a => exact .inl ⟨a, h, hc⟩
    | net n => exact .inr ⟨n, h, hc⟩

/-- **C22** `NetworkWildcard(address, wildcard)._addresses()` terminates without an exception after
at most `wildcard + 1` passes of its loop, and the returned addresses and networks together cover
exactly the addresses the wildcard denotes. -/
theorem C22_wildcard_enumeration_exact (address wildcard : Nat) (ha : address < 2 ^ 32)
    (hw : wildcard < 2 ^ 32) (fuel : Nat) (hf : wildcard + 1 ≤ fuel) :
    ∃ items, wildAddresses fuel address wildcard = some (.ok items) ∧
      ∀ x, ItemsCover items x ↔ WildcardSet address wildcard x := by
  have hstart : andNot address wildcard < 2 ^ 32 := by
    apply lt_two_pow_of_testBit; intro i hi
    rw [testBit_andNot, testBit_ge ha hi]; rfl
  have hid : andNot (andNot address wildcard) wildcard = andNot address wildcard := by
    apply Nat.eq_of_testBit_eq; intro i
    simp only [testBit_andNot]
    cases address.testBit i <;> cases wildcard.testBit i <;> rfl
  have hia : intAddress (andNot address wildcard) = .ok ⟨.v4, andNot address wildcard⟩ := by
    unfold intAddress; rw [if_pos hstart]
  have hent : ∀ x, Entry' (andNot address wildcard) wildcard x ↔ x < 2 ^ 32 ∧ AgreesOff address wildcard x := by
    intro x
    unfold Entry' AgreesOff
    constructor
    · rintro ⟨h1, h2⟩
      refine ⟨h1, fun i hi => ?_⟩
      rw [h2 i hi, testBit_andNot, hi]; simp
    · rintro ⟨h1, h2⟩
      refine ⟨h1, fun i hi => ?_⟩
      rw [h2 i hi, testBit_andNot, hi]; simp
  obtain ⟨items, h1, h2⟩ := wildLoop_ok (fun x => x < 2 ^ 32 ∧ AgreesOff address wildcard x) fuel
    [(andNot address wildcard, wildcard)] [.addr ⟨.v4, andNot address wildcard⟩]
    (by simpa using hf)
    (by
      intro e he; simp at he; subst he
      refine ⟨hstart, hw, fun i hi => ?_⟩
      simp only at hi
      simp [testBit_andNot, hi])
    (by
      rintro x ⟨it, hit, hc⟩
      simp at hit; subst hit
      have : x = ⟨.v4, andNot address wildcard⟩ := hc
      subst this
      exact ⟨rfl, (hent _).1 (entry_self hstart)⟩)
    (by intro e he x hx; simp at he; subst he; exact (hent x).1 hx)
    (by intro e he; simp at he; subst he; exact ⟨_, List.mem_singleton.2 rfl, rfl⟩)
    (by intro x hx; right; exact ⟨_, List.mem_singleton.2 rfl, (hent x).2 hx⟩)
  refine ⟨items, ?_, ?_⟩
  · unfold wildAddresses
    simp only [hid, if_true, hia, h1]
  · intro x
    rw [itemsCover_iff, h2]; rfl

/-- 10.0.0.0 with wildcard 0.0.1.1 (two free bits that are not adjacent). -/
example : wildAddresses 258 0x0A000000 0x101 = some (.ok
    [.addr ⟨.v4, 0x0A000000⟩, .addr ⟨.v4, 0x0A000000⟩, .addr ⟨.v4, 0x0A000100⟩,
     .net ⟨.v4, 0x0A000000, 31⟩, .net ⟨.v4, 0x0A000100, 31⟩]) := by decide +kernel

end Acltk
