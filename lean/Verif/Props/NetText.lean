import Verif.Lemmas.Ipv6Text
import Verif.Lemmas.Meet
import Verif.Model.IosHost
import Verif.Spec.NetSpec
/-!
# C19, C20: networks and wildcards from text

`ipAddress`, `mkNetwork` model `ipaddress.ip_address(text)` and `Network(address, mask)`
(Verif/Model/Mask.lean); `MaskText`, `AgreeTop`, `Dotted`, `NetmaskShaped` are the specification
(Verif/Spec/NetSpec.lean).
-/
namespace Acltk

theorem toString_toList (n : Nat) : (toString n).toList = decText n := by
  rw [Nat.toString_eq_repr, Nat.toList_repr]; rfl

theorem dotted_eq {q : Nat} (h : q < 2 ^ 32) : Dotted q = fmtV4 q := by
  unfold Dotted fmtV4
  have : q / 2 ^ 24 % 256 = q / 2 ^ 24 := by omega
  rw [this]
  simp [joinWith, decText]

theorem testBit_div {x y k : Nat} : x / 2 ^ k = y / 2 ^ k ↔ ∀ i, k ≤ i → x.testBit i = y.testBit i := by
  constructor
  · intro h i hi
    have := congrArg (fun z => z.testBit (i - k)) h
    simp only [Nat.testBit_div_two_pow] at this
    rwa [Nat.sub_add_cancel hi] at this
  · intro h
    apply Nat.eq_of_testBit_eq; intro i
    rw [Nat.testBit_div_two_pow, Nat.testBit_div_two_pow]
    exact h _ (by omega)

theorem agreeTop_iff {n : Nat} {x y : Addr} : AgreeTop n x y ↔
    x.ver = y.ver ∧ x.ip / 2 ^ (y.ver.width - n) = y.ip / 2 ^ (y.ver.width - n) := by
  unfold AgreeTop; rw [testBit_div]

theorem makeNetmask_le {v : Ver} {s : List Char} {n : Nat} (h : makeNetmask v s = some n) : n ≤ v.width := by
  have key : ∀ v ip n, ip < 2 ^ Ver.width v → prefixFromInt v ip = some n → n ≤ v.width :=
    fun v ip n hip h => ((prefixFromInt_iff hip).1 h).1
  cases v with
  | v6 => exact (prefixString_iff.1 h).2.2.2
  | v4 =>
    unfold makeNetmask at h
    simp only at h
    split at h
    · rename_i hp; cases h; exact (prefixString_iff.1 hp).2.2.2
    · unfold prefixFromIpString at h
      split at h; · simp at h
      rename_i ip hip
      obtain ⟨hlt, rfl⟩ := parseV4_some hip
      split at h
      · rename_i hp; cases h; exact key .v4 _ _ hlt hp
      · rw [xor_allOnes .v4 hlt] at h
        exact key .v4 _ _ (by have := Nat.two_pow_pos Ver.v4.width; omega) h

/-- The mask text has exactly the readings the specification lists. -/
theorem makeNetmask_iff {v : Ver} {s : List Char} {n : Nat} : makeNetmask v s = some n ↔ MaskText v s n := by
  have hdig : ∀ {w : Ver} {m : Nat}, prefixFromPrefixString w s = some m ↔
      (s ≠ [] ∧ (∀ c ∈ s, c.isDigit = true) ∧ s.length ≤ 4300 ∧ Nat.ofDigitChars 10 s 0 = m ∧ m ≤ w.width) := by
    intro w m
    rw [prefixString_iff]
    unfold isDigits
    rw [Bool.and_eq_true, List.all_eq_true]
    simp only [Bool.not_eq_true', List.isEmpty_eq_false_iff, and_assoc]
  have hdot : ∀ q, q < 2 ^ 32 → s = Dotted q → prefixFromPrefixString .v4 s = none := by
    intro q hq e; rw [e, dotted_eq hq]; exact prefixString_of_dot (fmtV4_has_dot q)
  cases v with
  | v6 =>
    constructor
    · intro h
      obtain ⟨h1, h2, h3, h4, h5⟩ := hdig.1 h
      exact .prefixLen h1 h2 h3 h4 h5
    · rintro (⟨h1, h2, h3, h4, h5⟩ | ⟨h, _⟩ | ⟨h, _⟩)
      · exact hdig.2 ⟨h1, h2, h3, h4, h5⟩
      · cases h
      · cases h
  | v4 =>
    have w32 : Ver.v4.width = 32 := rfl
    constructor
    · intro h
      unfold makeNetmask at h
      simp only at h
      split at h
      · rename_i hp
        cases h
        obtain ⟨h1, h2, h3, h4, h5⟩ := hdig.1 hp
        exact .prefixLen h1 h2 h3 h4 h5
      · unfold prefixFromIpString at h
        split at h; · simp at h
        rename_i ip hip
        obtain ⟨hlt, rfl⟩ := parseV4_some hip
        split at h
        · rename_i hp; cases h
          obtain ⟨hp1, hp2⟩ := (prefixFromInt_iff (v := .v4) hlt).1 hp
          rw [w32] at hp2 hp1
          refine .netmask rfl hp1 ?_
          rw [dotted_eq (by omega), ← hp2]
        · rename_i hnone
          rw [xor_allOnes .v4 hlt, w32] at h
          obtain ⟨hp1, hp2⟩ := (prefixFromInt_iff (v := .v4) (by show _ < 2 ^ 32; omega)).1 h
          rw [w32] at hp1 hp2
          have hpp : 2 ^ (32 - n) ≤ 2 ^ 32 := Nat.pow_le_pow_right (by omega) (by omega)
          have hpos := Nat.two_pow_pos (32 - n)
          have e : ip = 2 ^ (32 - n) - 1 := by omega
          refine .hostmask rfl ?_ ?_ ?_
          · rcases Nat.eq_zero_or_pos n with rfl | hn
            · exfalso
              have := (prefixFromInt_iff (v := .v4) (p := 32) hlt).2 ⟨by simp [w32], by rw [w32]; omega⟩
              rw [this] at hnone; cases hnone
            · exact hn
          · by_cases hn : n = 32
            · exfalso; subst hn
              have := (prefixFromInt_iff (v := .v4) (p := 0) hlt).2 ⟨by omega, by rw [w32]; omega⟩
              rw [this] at hnone; cases hnone
            · omega
          · rw [dotted_eq (by omega), e]
    · rintro (⟨h1, h2, h3, h4, h5⟩ | ⟨_, hn, hs⟩ | ⟨_, hn1, hn2, hs⟩)
      · unfold makeNetmask
        simp only
        rw [hdig.2 ⟨h1, h2, h3, h4, h5⟩]
      · have hpp : 2 ^ (32 - n) ≤ 2 ^ 32 := Nat.pow_le_pow_right (by omega) (by omega)
        have hpos := Nat.two_pow_pos (32 - n)
        have hlt : 2 ^ 32 - 2 ^ (32 - n) < 2 ^ 32 := by omega
        rw [hs, dotted_eq hlt, makeNetmask_v4_dotted hlt]
        have := (prefixFromInt_iff (v := .v4) (p := n) hlt).2 ⟨by rw [w32]; exact hn, rfl⟩
        rw [this]
      · have hpp : 2 ^ (32 - n) ≤ 2 ^ 31 := Nat.pow_le_pow_right (by omega) (by omega)
        have hpos := Nat.two_pow_pos (32 - n)
        have h2 : 2 ≤ 2 ^ (32 - n) := by
          have : 2 ^ 1 ≤ 2 ^ (32 - n) := Nat.pow_le_pow_right (by omega) (by omega)
          omega
        have hlt : 2 ^ (32 - n) - 1 < 2 ^ 32 := by omega
        rw [hs, dotted_eq hlt, makeNetmask_v4_dotted hlt]
        have hno : prefixFromInt .v4 (2 ^ (32 - n) - 1) = none := by
          cases hq : prefixFromInt .v4 (2 ^ (32 - n) - 1) with
          | none => rfl
          | some p =>
            exfalso
            obtain ⟨hp1, hp2⟩ := (prefixFromInt_iff (v := .v4) hlt).1 hq
            rw [w32] at hp1 hp2
            -- the netmask is 0 or at least 2^31
            by_cases hp0 : p = 0
            · subst hp0; omega
            · have : 2 ^ (32 - p) ≤ 2 ^ 31 := Nat.pow_le_pow_right (by omega) (by omega)
              omega
        rw [hno]
        simp only
        apply (prefixFromInt_iff (v := .v4) (by show _ < 2 ^ 32; omega)).2
        rw [w32]; exact ⟨by omega, by omega⟩

/-! ## C19 -/

/-- **C19** (acceptance) If the address text denotes `x` and the mask text stands for prefix length
`n`, `Network(address, mask)` succeeds and denotes exactly the addresses that agree with `x` on
the `n` most significant bits; its stored address has the host bits cleared. -/
theorem C19_network_denotes (address mask : List Char) (x : Addr) (n : Nat)
    (ha : ipAddress address = .ok x) (hm : MaskText x.ver mask n) :
    ∃ net, mkNetwork address mask = .ok net ∧ net.ver = x.ver ∧ net.plen = n ∧
      (∀ y : Addr, net.Denotes y ↔ AgreeTop n y x) ∧
      (∀ i, i < x.ver.width - n → net.addr.testBit i = false) := by
  have hv := ipAddress_valid ha
  have hmk := makeNetmask_iff.2 hm
  have hle := makeNetmask_le hmk
  refine ⟨mkNet x n, ?_, rfl, rfl, ?_, ?_⟩
  · rw [mkNetwork_of_address ha, hmk]
  · intro y; rw [mkNet_denotes hv hle, agreeTop_iff]
  · intro i hi
    show (x.ip &&& x.ver.maskOf n).testBit i = false
    rw [Nat.testBit_and, testBit_maskOf]
    have : ¬ (i < x.ver.width ∧ x.ver.width ≤ n + i) := by omega
    simp [this]

/-- **C19** (rejection) Every other mask text, and every text that is not an address, is rejected
with ValueError. -/
theorem C19_network_rejects (address mask : List Char)
    (h : ∀ x, ipAddress address = .ok x → ¬ ∃ n, MaskText x.ver mask n) :
    mkNetwork address mask = .error .value := by
  by_cases ha : ∃ x, ipAddress address = .ok x
  · obtain ⟨x, ha⟩ := ha
    rw [mkNetwork_of_address ha]
    cases hm : makeNetmask x.ver mask with
    | none => rfl
    | some n => exact absurd ⟨n, makeNetmask_iff.1 hm⟩ (h x ha)
  · exact mkNetwork_of_bad_address (fun x hx => ha ⟨x, hx⟩)

/-- **C19** (unambiguous) A mask text has at most one reading. -/
theorem C19_mask_unique (v : Ver) (s : List Char) (m n : Nat) (h1 : MaskText v s m) (h2 : MaskText v s n) :
    m = n := by
  have a := makeNetmask_iff.2 h1
  rw [makeNetmask_iff.2 h2] at a
  exact (Option.some.inj a).symm

/-- **C19** (addresses) Printing an address and reading it back gives the same address, for every
IPv4 and IPv6 address. -/
theorem C19_address_text_round_trip (a : Addr) (h : a.Valid) : ipAddress a.text = .ok a :=
  ipAddress_text h

/-- **C19** (IPv4 text) A text is read as the IPv4 address `q` exactly if it is the dotted decimal
notation of `q`. -/
theorem C19_v4_text (s : List Char) (q : Nat) :
    ipAddress s = .ok ⟨.v4, q⟩ ↔ q < 2 ^ 32 ∧ s = Dotted q := by
  constructor
  · intro h
    obtain ⟨_, ⟨_, hp⟩ | ⟨hv, _⟩⟩ := ipAddress_ok h
    · obtain ⟨h1, h2⟩ := parseV4_some hp
      exact ⟨h1, by rw [dotted_eq h1, h2]⟩
    · cases hv
  · rintro ⟨h, rfl⟩
    rw [dotted_eq h]
    exact ipAddress_text (a := ⟨.v4, q⟩) h

/-- The hypotheses are met: `10.1.2.3/255.255.0.0`, `10.1.2.3/0.0.255.255`, `10.1.2.3/16`. -/
example : MaskText .v4 "255.255.0.0".toList 16 :=
  .netmask rfl (by decide) (by decide +kernel)
example : MaskText .v4 "0.0.255.255".toList 16 :=
  .hostmask rfl (by decide) (by decide) (by decide +kernel)
example : MaskText .v6 "64".toList 64 :=
  .prefixLen (by decide) (by decide) (by decide) (by decide) (by decide)
example : ipAddress "10.1.2.3".toList = .ok ⟨.v4, 0x0A010203⟩ := by decide +kernel
example : ipAddress "2001:db8::1".toList = .ok ⟨.v6, 0x20010db8000000000000000000000001⟩ := by
  decide +kernel
example : ipAddress "::ffff:1.2.3.4".toList = .ok ⟨.v6, 0xffff01020304⟩ := by decide +kernel
example : (Addr.mk .v6 0x20010db8000000000000000000000001).text = "2001:db8::1".toList := by
  decide +kernel
example : mkNetwork "10.1.2.3".toList "0.0.255.255".toList = .ok ⟨.v4, 0x0A010000, 16⟩ := by
  decide +kernel
example : mkNetwork "10.1.2.3".toList "0.0.255.254".toList = .error .value := by decide +kernel
example : ¬ ∃ n, MaskText .v4 "0.0.255.254".toList n := by
  rintro ⟨n, h⟩
  have : makeNetmask .v4 "0.0.255.254".toList = none := by decide +kernel
  rw [makeNetmask_iff.2 h] at this; cases this

/-! ## C20 -/

/-- Intersection of the wildcard reading of a pair: the IPv4 addresses that agree with `a` where
`w` has a zero bit. -/
def WildcardSet (a w : Nat) (x : Addr) : Prop := x.ver = .v4 ∧ x.ip < 2 ^ 32 ∧ AgreesOff a w x.ip

/-- **C20, exactly, where it is violated**: a wildcard that is shaped like the netmask of length `p` is taken for that netmask: the
host denotes the addresses that share the first `p` bits with the address. -/
theorem C20_exact (a p : Nat) (ha : a < 2 ^ 32) (hp : p ≤ 32) :
    ∃ h, iosWildcardHost ⟨.v4, a⟩ ⟨.v4, 2 ^ 32 - 2 ^ (32 - p)⟩ = .ok h ∧
      ∀ x, Covers h x ↔ x.ver = .v4 ∧ x.ip < 2 ^ 32 ∧ x.ip / 2 ^ (32 - p) = a / 2 ^ (32 - p) := by
  have hpp : 2 ^ (32 - p) ≤ 2 ^ 32 := Nat.pow_le_pow_right (by omega) (by omega)
  have hpos := Nat.two_pow_pos (32 - p)
  have hw : 2 ^ 32 - 2 ^ (32 - p) < 2 ^ 32 := by omega
  have hta : ipAddress (Addr.text ⟨.v4, a⟩) = .ok ⟨.v4, a⟩ := ipAddress_text (a := ⟨.v4, a⟩) ha
  have hmm : makeNetmask .v4 (Addr.text ⟨.v4, 2 ^ 32 - 2 ^ (32 - p)⟩) = some p := by
    show makeNetmask .v4 (fmtV4 _) = _
    rw [makeNetmask_v4_dotted hw, (prefixFromInt_iff (v := .v4) (p := p) hw).2 ⟨hp, rfl⟩]
  refine ⟨.net (mkNet ⟨.v4, a⟩ p), ?_, fun x => ?_⟩
  · unfold iosWildcardHost
    rw [mkNetwork_of_address hta]
    simp only [hmm]
  · have hva : (⟨.v4, a⟩ : Addr).Valid := ha
    have hle : p ≤ (⟨.v4, a⟩ : Addr).ver.width := hp
    rw [covers_net, mkNet_denotes hva hle]
    have w32 : Ver.v4.width = 32 := rfl
    simp only [w32]
    refine ⟨fun h => ⟨h.1, ?_, h.2⟩, fun h => ⟨h.1, h.2.2⟩⟩
    have hs : 2 ^ 32 = 2 ^ p * 2 ^ (32 - p) := by rw [← Nat.pow_add]; congr 1; omega
    have h1 : a / 2 ^ (32 - p) < 2 ^ p := (Nat.div_lt_iff_lt_mul hpos).2 (by rw [← hs]; exact ha)
    rw [← h.2, Nat.div_lt_iff_lt_mul hpos, ← hs] at h1
    exact h1

/-- **C20** (partial) If the wildcard does not look like a netmask, the IOS host `address wildcard`
denotes exactly the addresses that agree with the address on the zero bits of the wildcard.
Missing: netmask-shaped wildcards, for which the property is false (`C20_violated`). -/
theorem C20_ios_wildcard_partial (a w : Nat) (ha : a < 2 ^ 32) (hw : w < 2 ^ 32) (hs : ¬ NetmaskShaped w) :
    ∃ h, iosWildcardHost ⟨.v4, a⟩ ⟨.v4, w⟩ = .ok h ∧ ∀ x, Covers h x ↔ WildcardSet a w x := by
  have hta : ipAddress (Addr.text ⟨.v4, a⟩) = .ok ⟨.v4, a⟩ := ipAddress_text (a := ⟨.v4, a⟩) ha
  have htw : ipAddress (Addr.text ⟨.v4, w⟩) = .ok ⟨.v4, w⟩ := ipAddress_text (a := ⟨.v4, w⟩) hw
  unfold iosWildcardHost
  rw [mkNetwork_of_address hta]
  have hmm : makeNetmask .v4 (Addr.text ⟨.v4, w⟩) = prefixFromInt .v4 (2 ^ 32 - 1 - w) := by
    show makeNetmask .v4 (fmtV4 w) = _
    rw [makeNetmask_v4_dotted hw]
    cases hq : prefixFromInt .v4 w with
    | none => rfl
    | some p => exact absurd ⟨p, (prefixFromInt_iff (v := .v4) hw).1 hq⟩ hs
  show ∃ h, (match (match makeNetmask .v4 (Addr.text ⟨.v4, w⟩) with
      | some p => Except.ok (mkNet ⟨.v4, a⟩ p) | none => Except.error PyErr.value) with
    | .ok n => Except.ok (Host.net n)
    | .error _ => mkWildcard ⟨.v4, a⟩ ⟨.v4, w⟩) = .ok h ∧ _
  rw [hmm]
  cases hq : prefixFromInt .v4 (2 ^ 32 - 1 - w) with
  | none =>
    refine ⟨.wild a w, ?_, ?_⟩
    · simp only [mkWildcard, hta, htw]
    · intro x; rw [covers_wild]; rfl
  | some p =>
    obtain ⟨hp, hp2⟩ := (prefixFromInt_iff (v := .v4) (by show _ < 2 ^ 32; omega)).1 hq
    have w32 : Ver.v4.width = 32 := rfl
    rw [w32] at hp hp2
    have hpp : 2 ^ (32 - p) ≤ 2 ^ 32 := Nat.pow_le_pow_right (by omega) (by omega)
    have hpos := Nat.two_pow_pos (32 - p)
    have hwe : w = 2 ^ (32 - p) - 1 := by omega
    refine ⟨_, rfl, ?_⟩
    intro x
    have hva : (⟨.v4, a⟩ : Addr).Valid := ha
    have hle : p ≤ (⟨.v4, a⟩ : Addr).ver.width := hp
    rw [covers_net, mkNet_denotes hva hle, testBit_div]
    unfold WildcardSet AgreesOff
    simp only [hwe, Nat.testBit_two_pow_sub_one, w32, decide_eq_false_iff_not, Nat.not_lt]
    constructor
    · rintro ⟨h1, h2⟩
      refine ⟨h1, ?_, h2⟩
      exact lt_two_pow_of_testBit (fun i hi => by rw [h2 i (by omega)]; exact testBit_ge ha hi)
    · rintro ⟨h1, _, h2⟩; exact ⟨h1, h2⟩

/-- **C20** violated: for *every* address and every netmask-shaped wildcard (in particular
`0.0.0.0` = exactly this host, and `255.255.255.255` = any) the host does not denote the wildcard
set. -/
theorem C20_violated (a w : Nat) (ha : a < 2 ^ 32) (hs : NetmaskShaped w) :
    ∃ h, iosWildcardHost ⟨.v4, a⟩ ⟨.v4, w⟩ = .ok h ∧ ¬ ∀ x, Covers h x ↔ WildcardSet a w x := by
  obtain ⟨p, hp, rfl⟩ := hs
  have hpp : 2 ^ (32 - p) ≤ 2 ^ 32 := Nat.pow_le_pow_right (by omega) (by omega)
  have hpos := Nat.two_pow_pos (32 - p)
  have hw : 2 ^ 32 - 2 ^ (32 - p) < 2 ^ 32 := by omega
  have w32 : Ver.v4.width = 32 := rfl
  have hta : ipAddress (Addr.text ⟨.v4, a⟩) = .ok ⟨.v4, a⟩ := ipAddress_text (a := ⟨.v4, a⟩) ha
  have hmm : makeNetmask .v4 (Addr.text ⟨.v4, 2 ^ 32 - 2 ^ (32 - p)⟩) = some p := by
    show makeNetmask .v4 (fmtV4 _) = _
    rw [makeNetmask_v4_dotted hw, (prefixFromInt_iff (v := .v4) (p := p) hw).2 ⟨hp, rfl⟩]
  refine ⟨.net (mkNet ⟨.v4, a⟩ p), ?_, ?_⟩
  · unfold iosWildcardHost
    rw [mkNetwork_of_address hta]
    simp only [hmm]
  · intro hall
    -- the address with the lowest bit flipped
    have hx := hall ⟨.v4, a ^^^ 1⟩
    have hva : (⟨.v4, a⟩ : Addr).Valid := ha
    have hle : p ≤ (⟨.v4, a⟩ : Addr).ver.width := hp
    have hflip : (a ^^^ 1).testBit 0 ≠ a.testBit 0 := by
      rw [Nat.testBit_xor]; cases a.testBit 0 <;> simp
    have hsame : ∀ i, i ≠ 0 → (a ^^^ 1).testBit i = a.testBit i := by
      intro i hi
      rw [Nat.testBit_xor, show (1 : Nat) = 2 ^ 1 - 1 from rfl, Nat.testBit_two_pow_sub_one]
      simp [hi]
    rw [covers_net, mkNet_denotes hva hle, testBit_div] at hx
    simp only [w32] at hx
    unfold WildcardSet AgreesOff at hx
    have hwbit : ∀ i, (2 ^ 32 - 2 ^ (32 - p)).testBit i = decide (i < 32 ∧ 32 - p ≤ i) := by
      intro i
      have e := testBit_maskOf .v4 p i
      have : Ver.v4.maskOf p = 2 ^ 32 - 2 ^ (32 - p) := by
        have h1 := and_maskOf .v4 p (2 ^ 32 - 1) hp (by decide)
        have h2 : (2 ^ 32 - 1) &&& Ver.v4.maskOf p = Ver.v4.maskOf p := by
          apply Nat.eq_of_testBit_eq; intro j
          rw [Nat.testBit_and, testBit_maskOf, Nat.testBit_two_pow_sub_one]
          by_cases hj : j < 32 <;> simp [hj, w32]
        rw [← h2, h1, w32]
        have hs : 2 ^ 32 = 2 ^ p * 2 ^ (32 - p) := by rw [← Nat.pow_add]; congr 1; omega
        have hdiv : (2 ^ 32 - 1) / 2 ^ (32 - p) = 2 ^ p - 1 := by
          rw [hs]
          have hpp2 := Nat.two_pow_pos p
          apply Nat.div_eq_of_lt_le
          · rw [Nat.sub_mul, Nat.one_mul]; omega
          · rw [Nat.sub_add_cancel hpp2]
            have : 0 < 2 ^ p * 2 ^ (32 - p) := Nat.mul_pos hpp2 hpos
            omega
        rw [hdiv, Nat.sub_mul, Nat.one_mul, ← hs]
      rw [← this, e, w32]
      congr 1
      exact propext ⟨fun h => ⟨h.1, by omega⟩, fun h => ⟨h.1, by omega⟩⟩
    by_cases hp32 : p = 32
    · -- all ones: the network is the single address, the wildcard set is everything
      subst hp32
      have hlt : a ^^^ 1 < 2 ^ 32 :=
        Nat.xor_lt_two_pow ha (by decide)
      have := hx.2 ⟨rfl, hlt, fun i hi => by
        by_cases h0 : i = 0
        · subst h0; rw [hwbit] at hi; simp at hi
        · exact hsame i h0⟩
      exact hflip (this.2 0 (by omega))
    · -- otherwise bit 0 is free in the network and fixed by the wildcard
      have := hx.1 ⟨trivial, fun i hi => hsame i (by omega)⟩
      refine hflip (this.2.2 0 ?_)
      rw [hwbit]; simp; omega

/-- A non-contiguous wildcard and an ordinary hostmask are not netmask-shaped. -/
theorem not_netmaskShaped_of {w : Nat} (h : w < 2 ^ 32) (hc : prefixFromInt .v4 w = none) : ¬ NetmaskShaped w := by
  rintro ⟨p, hp, e⟩
  have := (prefixFromInt_iff (v := .v4) (p := p) h).2 ⟨hp, e⟩
  rw [hc] at this; cases this
example : ¬ NetmaskShaped 0x000000FF := not_netmaskShaped_of (by decide) (by decide +kernel)
example : ¬ NetmaskShaped 0x0000FE01 := not_netmaskShaped_of (by decide) (by decide +kernel)
example : iosWildcardHost ⟨.v4, 0x0A000000⟩ ⟨.v4, 0x0000FE01⟩ = .ok (.wild 0x0A000000 0x0000FE01) := by
  with_unfolding_all rfl
example : NetmaskShaped 0 := ⟨0, by decide, by decide⟩
example : NetmaskShaped 0xFFFFFFFF := ⟨32, by decide, by decide⟩

/-- IPv6 hosts in IOS lists: `address/prefix` denotes the addresses agreeing on the prefix, a plain
address denotes itself, `any` denotes everything, and a prefix above 128 is rejected. -/
theorem C20_ios_ipv6 (a : Addr) (ha : a.Valid) (p : List Char) :
    (∀ n, MaskText a.ver p n → ∃ net, iosIpv6Host (some a) (some p) = .ok (.net net) ∧
        ∀ y : Addr, net.Denotes y ↔ AgreeTop n y a) ∧
    ((¬ ∃ n, MaskText a.ver p n) → iosIpv6Host (some a) (some p) = .error .value) ∧
    iosIpv6Host (some a) none = .ok (.host a) ∧ iosIpv6Host none none = .ok .any := by
  have hta := ipAddress_text ha
  refine ⟨?_, ?_, ?_, rfl⟩
  · intro n hm
    obtain ⟨net, h1, _, _, h2, _⟩ := C19_network_denotes _ _ _ _ hta hm
    exact ⟨net, by simp [iosIpv6Host, h1], h2⟩
  · intro hm
    have := C19_network_rejects a.text p (fun x hx => by
      rw [hta] at hx; cases hx; exact hm)
    simp [iosIpv6Host, this]
  · simp [iosIpv6Host, mkHost, hta]

end Acltk
