import Verif.Lemmas.Rule
/-!
# C07, C08, C10, C17: rules, NAT objects and `ACLRules.filter`

`ruleAnd fuel f e` is `f & e` for a filter rule `f` and an entry `e` (a rule or a NAT object);
`rulesFilter fuel heap rules target` is `ACLRules.filter(target)` on the objects with identities
`rules`.  `IdsCompatible`, `SaneId` are the specification (Verif/Spec/RuleSpec.lean).
-/
namespace Acltk

/-! ## C07 -/

/-- **C07** a filter rule matches an ACL rule iff the ids are compatible, the sources match and
the destinations match. -/
theorem C07_rule_match_iff (f r : Rule) (fuel : Nat) (sf : SaneId f.id) (sr : SaneId r.id) :
    ruleAnd (fuel + 2) f (.rule r) = .ok true ↔
      IdsCompatible f.id r.id ∧ meet fuel f.src.host r.src.host = .ok true ∧
        meet fuel f.dst.host r.dst.host = .ok true := by
  rw [← idCompat_iff _ _ sf sr]
  simp only [ruleAnd]
  split
  · rename_i h; simp [pyAnd_true, nodeAnd, h]
  · rename_i h; simp [h]

/-- **C07** in terms of addresses: for rules without wildcards against wildcards or IPv6 (see C04,
C05), and given enough stack, the comparison returns a boolean, and it is True iff the ids are
compatible and both sides share an address (or the filter side contains `any`/an interface). -/
theorem C07_rule_match_addresses (f r : Rule) (fuel : Nat) (sf : SaneId f.id) (sr : SaneId r.id)
    (hf : OrdinaryRule f) (hr : OrdinaryRule r)
    (wf : ¬ HasWild f.src.host ∧ ¬ HasWild f.dst.host)
    (w6 : (HasWild r.src.host → ¬ HasV6 f.src.host) ∧ (HasWild r.dst.host → ¬ HasV6 f.dst.host))
    (d1 : f.src.host.depth + r.src.host.depth + 1 ≤ fuel)
    (d2 : f.dst.host.depth + r.dst.host.depth + 1 ≤ fuel) :
    ∃ b, ruleAnd (fuel + 2) f (.rule r) = .ok b ∧
      (b = true ↔ IdsCompatible f.id r.id ∧
        (HasAny f.src.host ∨ ∃ x, Covers f.src.host x ∧ Covers r.src.host x) ∧
        (HasAny f.dst.host ∨ ∃ x, Covers f.dst.host x ∧ Covers r.dst.host x)) := by
  obtain ⟨b1, e1, p1⟩ := meet_main fuel (a := f.src.host) (b := r.src.host)
    ⟨hf.1, hr.1, fun h => wf.1 h.1, fun h => wf.1 h.1, fun h => w6.1 h.1 h.2⟩ d1
  obtain ⟨b2, e2, p2⟩ := meet_main fuel (a := f.dst.host) (b := r.dst.host)
    ⟨hf.2, hr.2, fun h => wf.2 h.1, fun h => wf.2 h.1, fun h => w6.2 h.1 h.2⟩ d2
  have tot : ∃ b, ruleAnd (fuel + 2) f (.rule r) = .ok b := by
    simp only [ruleAnd]
    split
    · exact pyAnd_total ⟨b1, e1⟩ ⟨b2, e2⟩
    · exact ⟨_, rfl⟩
  obtain ⟨b, hb⟩ := tot
  refine ⟨b, hb, ?_⟩
  have := C07_rule_match_iff f r fuel sf sr
  rw [hb, e1, e2] at this
  simp only [Except.ok.injEq] at this
  rw [this, p1, p2]
  rfl

/-- **C07** protocol, ports, mode, line, remarks, options, icmp and heading never influence the
outcome (including exceptions): only ids and hosts do. -/
theorem C07_only_id_src_dst (f f' r r' : Rule) (fuel : Nat)
    (h1 : f.id = f'.id) (h2 : f.src.host = f'.src.host) (h3 : f.dst.host = f'.dst.host)
    (h4 : r.id = r'.id) (h5 : r.src.host = r'.src.host) (h6 : r.dst.host = r'.dst.host) :
    ruleAnd fuel f (.rule r) = ruleAnd fuel f' (.rule r') := by
  cases fuel with
  | zero => rfl
  | succ fuel =>
    simp only [ruleAnd, h1, h4]
    cases fuel with
    | zero => rfl
    | succ fuel => simp only [nodeAnd, h2, h3, h5, h6]

namespace Sample
/-- filter: id /in*/, source 10.0.0.0/8, destination any -/
def filt : Rule := { id := some "/in*/", src := ⟨.net ⟨.v4, 0x0A000000, 8⟩, none⟩, dst := ⟨.any, none⟩ }
/-- rule of access list `inside`: 10.1.2.3 → 192.168.1.0/24 -/
def rul : Rule := { id := some "inside", mode := some "permit", protocol := some "tcp",
                    src := ⟨.host ⟨.v4, 0x0A010203⟩, some "eq 80"⟩, dst := ⟨.net ⟨.v4, 0xC0A80100, 24⟩, none⟩ }
theorem saneId_in : SaneId (some "/in*/") := by
  intro s body h hp
  cases h
  have : body = "in*" := isPattern_unique hp ⟨rfl, by decide⟩
  subst this
  intro pre t post e
  exfalso
  have : '[' ∈ "in*".toList := by rw [e]; simp
  revert this; decide
theorem saneId_inside : SaneId (some "inside") := by
  intro s body h hp
  cases h
  have h0 := congrArg String.toList hp.1
  simp at h0
end Sample

example : ruleAnd 6 Sample.filt (.rule Sample.rul) = .ok true := by decide +kernel
example : SaneId Sample.filt.id ∧ SaneId Sample.rul.id ∧ OrdinaryRule Sample.filt ∧ OrdinaryRule Sample.rul ∧
    (¬ HasWild Sample.filt.src.host ∧ ¬ HasWild Sample.filt.dst.host) ∧
    (HasWild Sample.rul.src.host → ¬ HasV6 Sample.filt.src.host) :=
  ⟨Sample.saneId_in, Sample.saneId_inside,
   ⟨fun l h => (by cases h; exact ⟨by show Net.Valid _; decide, by simp⟩), fun l h => (by cases h; exact ⟨trivial, by simp⟩)⟩,
   ⟨fun l h => (by cases h; exact ⟨by show Addr.Valid _; decide, by simp⟩),
    fun l h => (by cases h; exact ⟨by show Net.Valid _; decide, by simp⟩)⟩,
   ⟨fun ⟨_, _, h⟩ => (by cases h), fun ⟨_, _, h⟩ => (by cases h)⟩, fun ⟨_, _, h⟩ => (by cases h)⟩

/-! ## C08 -/

/-- **C08** for two rules whose sources and destinations match, the comparison returns True iff
the ids are compatible, and False otherwise. -/
theorem C08_id_compatibility (f r : Rule) (fuel : Nat) (sf : SaneId f.id) (sr : SaneId r.id)
    (hs : meet fuel f.src.host r.src.host = .ok true) (hd : meet fuel f.dst.host r.dst.host = .ok true) :
    (ruleAnd (fuel + 2) f (.rule r) = .ok true ↔ IdsCompatible f.id r.id) ∧
    (ruleAnd (fuel + 2) f (.rule r) = .ok false ↔ ¬ IdsCompatible f.id r.id) := by
  rw [← idCompat_iff _ _ sf sr]
  simp only [ruleAnd, nodeAnd, hs, hd]
  cases h : idCompat f.id r.id <;> simp [pyAnd]

/-- **C08** whatever the hosts are, incompatible ids make the comparison False (and neither side
is looked at). -/
theorem C08_incompatible_ids_never_match (f : Rule) (r : Rule) (fuel : Nat) (sf : SaneId f.id)
    (sr : SaneId r.id) (h : ¬ IdsCompatible f.id r.id) : ruleAnd (fuel + 1) f (.rule r) = .ok false := by
  rw [← idCompat_iff _ _ sf sr] at h
  simp [ruleAnd, h]

/-- **C08** the cases of `IdsCompatible`, spelled out: missing or empty ids are compatible with
everything; without any pattern the ids must be equal; a left pattern decides alone; a right
pattern decides when the left id is neither a pattern nor `/` nor `//`. -/
theorem C08_cases (a b : String) (ha : a ≠ "") (hb : b ≠ "") :
    IdsCompatible none (some b) ∧ IdsCompatible (some a) none ∧
    IdsCompatible (some "") (some b) ∧ IdsCompatible (some a) (some "") ∧
    ((∀ x, ¬ IsPattern a x) → (∀ x, ¬ IsPattern b x) → (IdsCompatible (some a) (some b) ↔ a = b)) ∧
    (∀ x, IsPattern a x → (IdsCompatible (some a) (some b) ↔ Glob.Matches x.toList b.toList)) ∧
    (∀ x, (∀ y, ¬ IsPattern a y) → a ≠ "/" → a ≠ "//" → IsPattern b x →
      (IdsCompatible (some a) (some b) ↔ Glob.Matches x.toList a.toList)) := by
  have pres : ∀ s : String, Present (some s) ↔ s ≠ "" := by intro s; simp [Present]
  have red : IdsCompatible (some a) (some b) ↔ IdOk a b := by
    unfold IdsCompatible; rw [pres, pres]; simp [ha, hb]
  refine ⟨.inl (by simp [Present]), .inr (.inl (by simp [Present])), .inl (by simp [Present]),
    .inr (.inl (by simp [Present])), ?_, ?_, ?_⟩
  · intro h1 h2; rw [red]
    constructor
    · intro h; cases h with
      | left h => exact absurd h (h1 _)
      | right _ _ _ h => exact absurd h (h2 _)
      | equal _ _ h => exact h
    · intro h; exact .equal h1 (fun _ _ => h2) h
  · intro x hx; rw [red]
    constructor
    · intro h; cases h with
      | left h h' => rw [isPattern_unique hx h]; exact h'
      | right h => exact absurd hx (h _)
      | equal h => exact absurd hx (h _)
    · exact .left hx
  · intro x h1 h2 h3 h4; rw [red]
    constructor
    · intro h; cases h with
      | left h => exact absurd h (h1 _)
      | right _ _ _ h h' => rw [isPattern_unique h4 h]; exact h'
      | equal _ h => exact absurd h4 (h h2 h3 _)
    · exact .right h1 h2 h3 h4

example : IdsCompatible (some "/in*/") (some "inside") ∧ ¬ IdsCompatible (some "outside") (some "inside") ∧
    ¬ IdsCompatible (some "/") (some "/x/") := by
  refine ⟨(idCompat_iff _ _ Sample.saneId_in Sample.saneId_inside).1 (by decide +kernel), ?_, ?_⟩
  · rintro (h | h | ⟨x, y, h1, h2, h⟩)
    · exact h ⟨_, rfl, by decide⟩
    · exact h ⟨_, rfl, by decide⟩
    · cases h1; cases h2
      have np : ∀ {s : String}, s.toList.head? ≠ some '/' → ∀ x, ¬ IsPattern s x := by
        intro s hs x hx; apply hs; rw [hx.1]; simp
      cases h with
      | left h => exact np (by decide) _ h
      | right _ _ _ h => exact np (by decide) _ h
      | equal _ _ h => revert h; decide
  · rintro (h | h | ⟨x, y, h1, h2, h⟩)
    · exact h ⟨_, rfl, by decide⟩
    · exact h ⟨_, rfl, by decide⟩
    · cases h1; cases h2
      cases h with
      | left h => exact slash_not_pattern _ h
      | right _ h => exact h rfl
      | equal _ _ h => revert h; decide

/-! ## C10 -/

/-- **C10** `filter(target)` returns, without duplicates, exactly those rules of the list for
which at least one target matches. -/
theorem C10_filter_exact (fuel : Nat) (heap : Oid → Entry) (rules : List Oid) (target : List Rule)
    (r : List Oid) (h : rulesFilter (fuel + 1) heap rules target = .ok r) :
    r.Nodup ∧ ∀ o, o ∈ r ↔ o ∈ rules ∧ ∃ t ∈ target, ruleAnd fuel t (heap o) = .ok true := by
  have := filterLoop_spec (r := []) h (by simp)
  simpa using this

/-- **C10** `filter` returns normally whenever every single comparison does. -/
theorem C10_filter_returns (fuel : Nat) (heap : Oid → Entry) (rules : List Oid) (target : List Rule)
    (h : ∀ o ∈ rules, ∀ t ∈ target, ∃ b, ruleAnd fuel t (heap o) = .ok b) :
    ∃ r, rulesFilter (fuel + 1) heap rules target = .ok r := filterLoop_total h

/-- **C10** the result does not depend on the order or multiplicity of rules and targets. -/
theorem C10_order_irrelevant (fuel : Nat) (heap : Oid → Entry) (rules rules' : List Oid)
    (target target' : List Rule) (r r' : List Oid)
    (h1 : ∀ o, o ∈ rules ↔ o ∈ rules') (h2 : ∀ t, t ∈ target ↔ t ∈ target')
    (h : rulesFilter (fuel + 1) heap rules target = .ok r)
    (h' : rulesFilter (fuel + 1) heap rules' target' = .ok r') : r.Perm r' := by
  obtain ⟨n, e⟩ := C10_filter_exact _ _ _ _ _ h
  obtain ⟨n', e'⟩ := C10_filter_exact _ _ _ _ _ h'
  rw [List.perm_ext_iff_of_nodup n n']
  intro o; rw [e, e', h1]
  simp only [h2]

example : rulesFilter 7 (fun o => .rule (if o = 5 then Sample.rul else { Sample.rul with id := some "dmz" }))
    [4, 5, 6] [Sample.filt, Sample.filt] = .ok [5] := by decide +kernel

/-! ## C17 -/

/-- The nodes of a NAT side that are present. -/
def NatSide.HasSrc (s : NatSide) (h : Host) : Prop := s.src = some (some h)
def NatSide.HasDst (s : NatSide) (h : Host) : Prop := s.dst = some (some h)

/-- One NAT side matches: at least one node is present, and every node present matches the
filter's corresponding side (`m` decides host matching). -/
def SideMatches (m : Host → Host → Prop) (f : Rule) (s : NatSide) : Prop :=
  ((∃ h, s.HasSrc h) ∨ ∃ h, s.HasDst h) ∧ (∀ h, s.HasSrc h → m f.src.host h) ∧
    (∀ h, s.HasDst h → m f.dst.host h)

theorem natSide_true (fuel : Nat) (f : Rule) (s : NatSide) :
    natSideAnd (fuel + 1) f (some s) = .ok true ↔ SideMatches (fun a b => meet fuel a b = .ok true) f s := by
  unfold natSideAnd SideMatches NatSide.HasSrc NatSide.HasDst
  obtain ⟨src, dst⟩ := s
  rcases src with _ | _ | s <;> rcases dst with _ | _ | d <;>
    simp [Option.join, pyAnd_true, nodeAnd]

/-- **C17** a filter rule selects a NAT object iff its real or its mapped side matches: at least
one node present there and every present node matching the filter's corresponding side. -/
theorem C17_nat_match_iff (fuel : Nat) (f : Rule) (n : NatObj) (real mapped : NatSide) (b : Bool)
    (hr : n.real = some real) (hm : n.mapped = some mapped)
    (h : ruleAnd (fuel + 3) f (.nat n) = .ok b) :
    b = true ↔ SideMatches (fun a b => meet fuel a b = .ok true) f real ∨
      SideMatches (fun a b => meet fuel a b = .ok true) f mapped := by
  simp only [ruleAnd, natAnd, hr, hm] at h
  rw [loopAny_true h]
  simp [natSide_true]

/-- **C17** the comparison returns a boolean whenever both sides exist and the host comparisons
involved return one. -/
theorem C17_nat_match_returns (fuel : Nat) (f : Rule) (n : NatObj) (real mapped : NatSide)
    (hr : n.real = some real) (hm : n.mapped = some mapped)
    (h : ∀ s ∈ [real, mapped], (∀ x, s.HasSrc x → ∃ b, meet fuel f.src.host x = .ok b) ∧
      (∀ x, s.HasDst x → ∃ b, meet fuel f.dst.host x = .ok b)) :
    ∃ b, ruleAnd (fuel + 3) f (.nat n) = .ok b := by
  simp only [ruleAnd, natAnd, hr, hm]
  apply loopAny_total
  intro s hs
  simp only [List.mem_cons, List.not_mem_nil, or_false] at hs
  have key : ∀ t : NatSide, t ∈ [real, mapped] → ∃ r, natSideAnd (fuel + 1) f (some t) = .ok r := by
    intro t ht
    obtain ⟨h1, h2⟩ := h t ht
    unfold NatSide.HasSrc at h1; unfold NatSide.HasDst at h2
    unfold natSideAnd
    obtain ⟨src, dst⟩ := t
    rcases src with _ | _ | s <;> rcases dst with _ | _ | d <;> simp only [Option.join, nodeAnd]
    · exact ⟨_, rfl⟩
    · exact ⟨_, rfl⟩
    · exact h2 d rfl
    · exact ⟨_, rfl⟩
    · exact ⟨_, rfl⟩
    · exact h2 d rfl
    · exact h1 s rfl
    · exact h1 s rfl
    · exact pyAnd_total (h1 s rfl) (h2 d rfl)
  rcases hs with rfl | rfl
  · exact key _ (by simp)
  · exact key _ (by simp)

/-- **C17** the filter's id and everything else but its two hosts is ignored. -/
theorem C17_nat_ignores_id (fuel : Nat) (f f' : Rule) (n : NatObj)
    (h2 : f.src.host = f'.src.host) (h3 : f.dst.host = f'.dst.host) :
    ruleAnd fuel f (.nat n) = ruleAnd fuel f' (.nat n) := by
  cases fuel with
  | zero => rfl
  | succ fuel =>
    cases fuel with
    | zero => rfl
    | succ fuel =>
      simp only [ruleAnd, natAnd]
      apply loopAny_congr
      intro s _
      cases s with
      | none => rfl
      | some s =>
        unfold natSideAnd
        cases fuel with
        | zero => rfl
        | succ fuel => simp only [nodeAnd, h2, h3]

-- static NAT 10.1.2.3 -> 192.168.1.5: the mapped side is found by its own address
example : ruleAnd 8 { id := some "x", src := ⟨.net ⟨.v4, 0xC0A80100, 24⟩, none⟩, dst := ⟨.any, none⟩ }
    (.nat { real := some ⟨some (some (.host ⟨.v4, 0x0A010203⟩)), none⟩,
            mapped := some ⟨some (some (.host ⟨.v4, 0xC0A80105⟩)), some none⟩ }) = .ok true := by decide +kernel

end Acltk
