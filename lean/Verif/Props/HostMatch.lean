import Verif.Lemmas.MeetMain
/-!
# C01–C06: host matching

`meet fuel a b` is Python's `a & b` with `fuel` stack frames left (Verif/Model/Host.lean).
`Covers`, `Ordinary`, `HasAny`, `HasWild`, `HasV6`, `GroupLeaf`, `depth` are the specification
(Verif/Spec/HostSpec.lean).
-/
namespace Acltk

/-! ## sample hosts used in the examples -/
namespace Sample
/-- 10.0.0.0/8 -/
def net10 : Host := .net ⟨.v4, 0x0A000000, 8⟩
/-- 10.1.0.0/16 -/
def net10_1 : Host := .net ⟨.v4, 0x0A010000, 16⟩
/-- 10.1.2.3 -/
def host4 : Host := .host ⟨.v4, 0x0A010203⟩
/-- 2001:db8::1 -/
def host6 : Host := .host ⟨.v6, 0x20010db8000000000000000000000001⟩
/-- a nested group holding a v4 network, a v6 host and a network object -/
def grp : Host := .group "g" [.group "inner" [net10_1, host6], .obj "o" [host4]]

theorem ordinary_net {n : Net} (h : n.Valid) : Ordinary (.net n) := by
  intro l hl; cases hl; exact ⟨h, by simp⟩
theorem ordinary_host {a : Addr} (h : a.Valid) : Ordinary (.host a) := by
  intro l hl; cases hl; exact ⟨h, by simp⟩
theorem ordinary_wild {a w : Nat} (h : a < 2 ^ 32) (hw : w < 2 ^ 32) : Ordinary (.wild a w) := by
  intro l hl; cases hl; exact ⟨⟨h, hw⟩, by simp⟩
theorem ordinary_any : Ordinary .any := by intro l hl; cases hl; exact ⟨trivial, by simp⟩
theorem ordinary_group {nm l} (h : ∀ x ∈ l, Ordinary x) : Ordinary (.group nm l) := by
  intro x hx; rw [leaf_group] at hx; obtain ⟨y, hy, hx⟩ := hx; exact h y hy x hx
theorem ordinary_obj {nm l} (h : ∀ x ∈ l, Ordinary x) : Ordinary (.obj nm l) := by
  intro x hx; rw [leaf_obj] at hx; obtain ⟨y, hy, hx⟩ := hx; exact h y hy x hx
theorem ordinary_net10 : Ordinary net10 := ordinary_net (by decide)
theorem ordinary_grp : Ordinary grp := by
  apply ordinary_group; intro x hx
  simp only [List.mem_cons, List.not_mem_nil, or_false] at hx
  rcases hx with rfl | rfl
  · apply ordinary_group; intro y hy
    simp only [List.mem_cons, List.not_mem_nil, or_false] at hy
    rcases hy with rfl | rfl
    · exact ordinary_net (by decide)
    · exact ordinary_host (by decide)
  · apply ordinary_obj; intro y hy
    simp only [List.mem_cons, List.not_mem_nil, or_false] at hy
    subst hy; exact ordinary_host (by decide)
theorem nowild_net10 : ¬ HasWild net10 := by rintro ⟨a, w, h⟩; cases h
theorem nowild_grp : ¬ HasWild grp := by
  rintro ⟨a, w, h⟩
  simp only [grp, leaf_group, List.mem_cons, List.not_mem_nil, or_false] at h
  obtain ⟨x, rfl | rfl, h⟩ := h
  · rw [leaf_group] at h
    simp only [List.mem_cons, List.not_mem_nil, or_false] at h
    obtain ⟨x, rfl | rfl, h⟩ := h <;> cases h
  · rw [leaf_obj] at h
    simp only [List.mem_cons, List.not_mem_nil, or_false] at h
    obtain ⟨x, rfl, h⟩ := h; cases h
end Sample

/-! ## C01 -/

/-- **C01** `a & b` returns True exactly when some address is denoted by both sides, and False
exactly when none is.  Hypotheses: both hosts are ordinary and wildcard-free; if `a` contains an
`any`/interface leaf then `b` denotes at least one address (an empty group is the only way to
fail this); the frame budget is at least the sum of the nesting depths plus one. -/
theorem C01_host_matching_is_intersection (a b : Host) (fuel : Nat)
    (ha : Ordinary a) (hb : Ordinary b) (wa : ¬ HasWild a) (wb : ¬ HasWild b)
    (hne : HasAny a → ∃ x, Covers b x) (hf : a.depth + b.depth + 1 ≤ fuel) :
    (meet fuel a b = .ok true ∧ ∃ x, Covers a x ∧ Covers b x) ∨
    (meet fuel a b = .ok false ∧ ¬ ∃ x, Covers a x ∧ Covers b x) := by
  have hc : Compat a b := ⟨ha, hb, fun h => wa h.1, fun h => wa h.1, fun h => wb h.1⟩
  obtain ⟨r, hr, hp⟩ := meet_main fuel hc hf
  have key : Meets a b ↔ ∃ x, Covers a x ∧ Covers b x := by
    unfold Meets
    constructor
    · rintro (h | h)
      · obtain ⟨x, hx⟩ := hne h
        refine ⟨x, ?_, hx⟩
        have hv := covers_valid hb hx
        have key : ∀ c d, Leaf c d → Covers d x → Covers c x := by
          intro c d hl; induction hl with
          | obj hm _ ih => intro hc; exact .obj hm (ih hc)
          | group hm _ ih => intro hc; exact .group hm (ih hc)
          | _ => exact id
        rcases h with h | ⟨nm, h⟩
        · exact key _ _ h (.any hv)
        · exact key _ _ h (.iface hv)
      · exact h
    · exact .inr
  cases r with
  | true => exact .inl ⟨hr, key.1 (hp.1 rfl)⟩
  | false => exact .inr ⟨hr, fun h => by simpa using hp.2 (key.2 h)⟩

/-- **C01**, with wildcards: the same for IPv4 wildcards on one side, as long as the other side
has no wildcard and no IPv6 member (see C04, C05 for why these are excluded). -/
theorem C01_host_matching_with_wildcard (a b : Host) (fuel : Nat)
    (ha : Ordinary a) (hb : Ordinary b) (w1 : ¬ (HasWild a ∧ HasWild b))
    (w2 : ¬ (HasWild a ∧ HasV6 b)) (w3 : ¬ (HasWild b ∧ HasV6 a))
    (hf : a.depth + b.depth + 1 ≤ fuel) :
    ∃ r, meet fuel a b = .ok r ∧ (r = true ↔ (HasAny a ∨ ∃ x, Covers a x ∧ Covers b x)) :=
  meet_main fuel ⟨ha, hb, w1, w2, w3⟩ hf

/-- **C01**, the exception spelled out: `any & g` is True even for an empty group `g`. -/
theorem C01_any_matches_everything (b : Host) (fuel : Nat) : meet (fuel + 1) .any b = .ok true := rfl

example : (∃ x, Covers Sample.net10 x ∧ Covers Sample.grp x) ∧ meet 9 Sample.net10 Sample.grp = .ok true :=
  ⟨⟨⟨.v4, 0x0A010203⟩, .net ⟨rfl, by decide, by decide⟩,
    .group (h := .obj "o" [Sample.host4]) (by simp) (.obj (h := Sample.host4) (by simp) .host)⟩, by rfl⟩

example : Ordinary Sample.net10 ∧ Ordinary Sample.grp ∧ ¬ HasWild Sample.net10 ∧
    ¬ HasWild Sample.grp ∧ (HasAny Sample.net10 → ∃ x, Covers Sample.grp x) ∧
    Sample.net10.depth + Sample.grp.depth + 1 ≤ 9 :=
  ⟨Sample.ordinary_net10, Sample.ordinary_grp, Sample.nowild_net10, Sample.nowild_grp,
   fun h => (by rcases h with h | ⟨_, h⟩ <;> (cases h)), by decide⟩

/-! ## C02 -/

/-- **C02** matching is symmetric for non-empty ordinary hosts. -/
theorem C02_symmetric (a b : Host) (fuel fuel' : Nat)
    (ha : Ordinary a) (hb : Ordinary b) (w1 : ¬ (HasWild a ∧ HasWild b))
    (w2 : ¬ (HasWild a ∧ HasV6 b)) (w3 : ¬ (HasWild b ∧ HasV6 a))
    (nea : ∃ x, Covers a x) (neb : ∃ x, Covers b x)
    (hf : a.depth + b.depth + 1 ≤ fuel) (hf' : a.depth + b.depth + 1 ≤ fuel') :
    meet fuel a b = meet fuel' b a := by
  have hc : Compat a b := ⟨ha, hb, w1, w2, w3⟩
  obtain ⟨r, hr, hp⟩ := meet_main fuel hc hf
  obtain ⟨r', hr', hp'⟩ := meet_main fuel' hc.symm (by omega)
  have lift : ∀ c : Host, HasAny c → ∀ x : Addr, x.Valid → Covers c x := by
    intro c h x hv
    have key : ∀ c d, Leaf c d → Covers d x → Covers c x := by
      intro c d hl; induction hl with
      | obj hm _ ih => intro hc; exact .obj hm (ih hc)
      | group hm _ ih => intro hc; exact .group hm (ih hc)
      | _ => exact id
    rcases h with h | ⟨nm, h⟩
    · exact key _ _ h (.any hv)
    · exact key _ _ h (.iface hv)
  have e : Meets a b ↔ Meets b a := by
    unfold Meets
    constructor
    · rintro (h | ⟨x, h1, h2⟩)
      · obtain ⟨x, hx⟩ := neb
        exact .inr ⟨x, hx, lift a h x (covers_valid hb hx)⟩
      · exact .inr ⟨x, h2, h1⟩
    · rintro (h | ⟨x, h1, h2⟩)
      · obtain ⟨x, hx⟩ := nea
        exact .inr ⟨x, hx, lift b h x (covers_valid ha hx)⟩
      · exact .inr ⟨x, h2, h1⟩
  rw [hr, hr']
  have : r = r' := by
    cases r <;> cases r' <;> simp_all
  rw [this]

/-- **C02**, the exception: an empty group on one side of `any` makes the order matter. -/
theorem C02_empty_group_asymmetric (fuel : Nat) :
    meet (fuel + 1) .any (.group "empty" []) = .ok true ∧
    meet (fuel + 1) (.group "empty" []) .any = .ok false := ⟨rfl, rfl⟩

/-! ## C03 -/

/-- **C03** an IPv4 wildcard matches an IPv4 host iff the host agrees with the wildcard's address
on every bit that the wildcard does not mask, in both operand orders. -/
theorem C03_wildcard_host (a w x fuel : Nat) :
    (meet (fuel + 2) (.wild a w) (.host ⟨.v4, x⟩) = .ok true ↔
      ∀ i, w.testBit i = false → x.testBit i = a.testBit i) ∧
    meet (fuel + 2) (.host ⟨.v4, x⟩) (.wild a w) = meet (fuel + 2) (.wild a w) (.host ⟨.v4, x⟩) ∧
    meet (fuel + 2) (.wild a w) (.host ⟨.v4, x⟩) ≠ .error .recursion := by
  refine ⟨?_, rfl, by simp [meet]⟩
  simp only [meet, Except.ok.injEq]
  exact wildHost_iff a w ⟨.v4, x⟩

/-- **C03** an IPv4 wildcard matches an IPv4 network iff some address of the network agrees with
the wildcard's address on every bit that the wildcard does not mask, in both operand orders. -/
theorem C03_wildcard_network (a w fuel : Nat) (n : Net) (hn : n.Valid) (hv : n.ver = .v4)
    (ha : a < 2 ^ 32) :
    (meet (fuel + 2) (.wild a w) (.net n) = .ok true ↔
      ∃ x, n.addr ≤ x ∧ x < n.addr + 2 ^ (32 - n.plen) ∧
        ∀ i, w.testBit i = false → x.testBit i = a.testBit i) ∧
    meet (fuel + 2) (.net n) (.wild a w) = meet (fuel + 2) (.wild a w) (.net n) ∧
    meet (fuel + 2) (.wild a w) (.net n) ≠ .error .recursion := by
  refine ⟨?_, rfl, by simp [meet]⟩
  simp only [meet, Except.ok.injEq]
  rw [wildNet_iff a w n hn (by rw [hv]; exact ha)]
  unfold Net.Denotes
  constructor
  · rintro ⟨x, ⟨_, h1, h2⟩, h3⟩
    rw [hv] at h2
    exact ⟨x.ip, h1, h2, h3⟩
  · rintro ⟨x, h1, h2, h3⟩
    exact ⟨⟨.v4, x⟩, ⟨hv.symm, h1, by rw [hv]; exact h2⟩, h3⟩

-- non-contiguous wildcard 10.0.1.1 / 0.255.0.254 against 10.7.1.0/24
example : meet 2 (.wild 0x0A000101 0x00FF00FE) (.net ⟨.v4, 0x0A070100, 24⟩) = .ok true ∧
    (⟨.v4, 0x0A070100, 24⟩ : Net).Valid := ⟨by rfl, by decide⟩
example : meet 2 (.wild 0x0A000101 0x00FF00FE) (.net ⟨.v4, 0x0A070200, 24⟩) = .ok false := by rfl

/-! ## C04 -/

/-- **C04 is violated**: an IPv4 wildcard matches an IPv6 host (127.0.0.0 0.0.0.254 and
::7f00:2). -/
theorem C04_violated : ∃ (a w : Nat) (x : Addr), x.ver = .v6 ∧ x.Valid ∧ a < 2 ^ 32 ∧ w < 2 ^ 32 ∧
    meet 2 (.wild a w) (.host x) = .ok true :=
  ⟨0x7f000000, 0xfe, ⟨.v6, 0x7f000002⟩, by decide, by decide, by decide, by decide, by rfl⟩

theorem andNot_ge {x w : Nat} (hw : w < 2 ^ 32) (hx : 2 ^ 32 ≤ x) : ¬ andNot x w < 2 ^ 32 := by
  intro h
  obtain ⟨i, hi, hb⟩ := Nat.exists_ge_and_testBit_of_ge_two_pow hx
  have h1 := testBit_ge h hi
  rw [testBit_andNot, hb, testBit_ge hw hi] at h1
  simp at h1

theorem andNot_lt {x w : Nat} (hx : x < 2 ^ 32) : andNot x w < 2 ^ 32 := by
  apply Nat.lt_pow_two_of_testBit; intro i hi
  rw [testBit_andNot, testBit_ge hx hi]; simp

/-- **C04, what holds**: an IPv4 wildcard never matches an IPv6 host or network outside
`::/96` (whose integer is at least 2^32).  Missing: the IPv6 addresses below 2^32, where the
code compares bare integers. -/
theorem C04_no_cross_version_partial (a w fuel : Nat) (ha : a < 2 ^ 32) (hw : w < 2 ^ 32) :
    (∀ x : Addr, x.ver = .v6 → 2 ^ 32 ≤ x.ip →
      meet (fuel + 2) (.wild a w) (.host x) = .ok false ∧ meet (fuel + 2) (.host x) (.wild a w) = .ok false) ∧
    (∀ n : Net, n.ver = .v6 → 2 ^ 32 ≤ n.addr →
      meet (fuel + 2) (.wild a w) (.net n) = .ok false ∧ meet (fuel + 2) (.net n) (.wild a w) = .ok false) := by
  constructor
  · intro x _ hx
    have : wildHost a w x = false := by
      unfold wildHost
      rw [beq_eq_false_iff_ne]
      intro h; exact andNot_ge hw hx (h ▸ andNot_lt ha)
    simp [meet, this]
  · intro n _ hx
    have : wildNet a w n = false := by
      unfold wildNet
      rw [beq_eq_false_iff_ne]
      intro h
      exact andNot_ge hw hx (h ▸ andNot_lt (Nat.lt_of_le_of_lt Nat.and_le_left ha))
    simp [meet, this]

/-- **C04, exactly**: the version of the other side is not looked at. An IPv4 wildcard matches an IPv6 host iff the host's number,
taken as if it were an IPv4 address, agrees with the wildcard, and an IPv6 network iff some address of it does; in
both operand orders. -/
theorem C04_exact (a w fuel : Nat) (ha : a < 2 ^ 32) :
    (∀ x : Addr, x.ver = .v6 →
      (meet (fuel + 2) (.wild a w) (.host x) = .ok true ↔ ∀ i, w.testBit i = false → x.ip.testBit i = a.testBit i) ∧
      meet (fuel + 2) (.host x) (.wild a w) = meet (fuel + 2) (.wild a w) (.host x)) ∧
    (∀ n : Net, n.Valid → n.ver = .v6 →
      (meet (fuel + 2) (.wild a w) (.net n) = .ok true ↔
        ∃ x, n.addr ≤ x ∧ x < n.addr + 2 ^ (128 - n.plen) ∧ ∀ i, w.testBit i = false → x.testBit i = a.testBit i) ∧
      meet (fuel + 2) (.net n) (.wild a w) = meet (fuel + 2) (.wild a w) (.net n)) := by
  refine ⟨fun x hx => ⟨?_, rfl⟩, fun n hn hv => ⟨?_, rfl⟩⟩
  · simp only [meet, Except.ok.injEq]
    exact wildHost_iff a w x
  · simp only [meet, Except.ok.injEq]
    rw [wildNet_iff a w n hn (by rw [hv]; exact Nat.lt_trans ha (by decide))]
    unfold Net.Denotes
    constructor
    · rintro ⟨x, ⟨-, h1, h2⟩, h3⟩
      rw [hv] at h2
      exact ⟨x.ip, h1, h2, h3⟩
    · rintro ⟨x, h1, h2, h3⟩
      exact ⟨⟨.v6, x⟩, ⟨hv.symm, h1, by rw [hv]; exact h2⟩, h3⟩

example : ∃ x : Addr, x.ver = .v6 ∧ 2 ^ 32 ≤ x.ip ∧ x.Valid :=
  ⟨⟨.v6, 0x20010db8000000000000000000000001⟩, rfl, by decide, by decide⟩

/-! ## C05 -/

/-- **C05 is violated**: comparing two wildcards raises `RecursionError` whatever the recursion
limit is. -/
theorem C05_violated (a w a' w' fuel : Nat) : meet fuel (.wild a w) (.wild a' w') = .error .recursion := by
  induction fuel generalizing a w a' w' with
  | zero => rfl
  | succ n ih => simp only [meet]; exact ih ..

/-- **C05, what holds**: unless both sides contain a wildcard, `a & b` returns a boolean as soon
as the frame budget is the sum of the nesting depths plus one, for every kind of host including
the CAF keywords, and a larger budget gives the same answer. Missing: wildcard against wildcard. -/
theorem C05_terminates_partial (a b : Host) (h : ¬ (HasWild a ∧ HasWild b)) :
    ∃ r, ∀ fuel, a.depth + b.depth + 1 ≤ fuel → meet fuel a b = .ok r := by
  obtain ⟨r, hr⟩ := meet_total (a.depth + b.depth + 1) h (Nat.le_refl _)
  refine ⟨r, fun fuel hf => ?_⟩
  obtain ⟨k, rfl⟩ := Nat.exists_eq_add_of_le hf
  induction k with
  | zero => exact hr
  | succ k ih => exact meet_mono _ (ih (by omega))

example : ¬ (HasWild Sample.grp ∧ HasWild .any) := fun h => Sample.nowild_grp h.1

/-! ## C06 -/

/-- **C06** `ANY` selects a rule side iff it is literally `any` or a (nested) group containing
`any`; `ANY4`/`ANY6` likewise for `any4`/`any6`.  `GroupLeaf b l`: `l` is `b` or is reached
through groups only. -/
theorem C06_ANY_is_literal (b : Host) (fuel : Nat) (hf : b.depth ≤ fuel)
    (h1 : ¬ GroupLeaf b .cafAny) (h2 : ¬ GroupLeaf b .cafAny4) (h3 : ¬ GroupLeaf b .cafAny6) :
    (∃ r, meet fuel .cafAny b = .ok r ∧ (r = true ↔ GroupLeaf b .any)) ∧
    (∃ r, meet fuel .cafAny4 b = .ok r ∧ (r = true ↔ GroupLeaf b .any4)) ∧
    (∃ r, meet fuel .cafAny6 b = .ok r ∧ (r = true ↔ GroupLeaf b .any6)) := by
  refine ⟨(cafAny_main fuel hf).congr (by simp [h1]), (cafAny4_main fuel hf).congr (by simp [h2]),
    (cafAny6_main fuel hf).congr (by simp [h3])⟩

/-- **C06** in particular `ANY` never selects a side consisting of addresses, `any4`, `any6`,
an interface, or a network object (even an fqdn object, whose address is `any`). -/
theorem C06_ANY_rejects_rest (fuel : Nat) (hf : 1 ≤ fuel) :
    (∀ n, meet fuel .cafAny (.net n) = .ok false) ∧ (∀ a, meet fuel .cafAny (.host a) = .ok false) ∧
    (∀ a w, meet fuel .cafAny (.wild a w) = .ok false) ∧ (∀ nm, meet fuel .cafAny (.iface nm) = .ok false) ∧
    (∀ nm l, meet fuel .cafAny (.obj nm l) = .ok false) ∧
    meet fuel .cafAny .any4 = .ok false ∧ meet fuel .cafAny .any6 = .ok false ∧
    meet fuel .cafAny4 .any = .ok false ∧ meet fuel .cafAny6 .any = .ok false ∧
    meet fuel .cafAny4 .any6 = .ok false ∧ meet fuel .cafAny6 .any4 = .ok false := by
  obtain ⟨k, rfl⟩ : ∃ k, fuel = k + 1 := ⟨fuel - 1, by omega⟩
  exact ⟨fun _ => rfl, fun _ => rfl, fun _ _ => rfl, fun _ => rfl, fun _ _ => rfl, rfl, rfl, rfl, rfl, rfl, rfl⟩

example : GroupLeaf (.group "g" [Sample.net10, .group "h" [.any]]) .any ∧
    meet 3 .cafAny (.group "g" [Sample.net10, .group "h" [.any]]) = .ok true :=
  ⟨.group (h := .group "h" [.any]) (by simp) (.group (h := .any) (by simp) .self), by rfl⟩

end Acltk
