import Verif.Spec.NatSpec
import Verif.Props.RuleMatch
import Verif.Props.HostMatch
import Verif.Spec.PfsenseSpec
/-!
# C50, C51, C54, C62: NAT commands
-/
namespace Acltk.NatCmd
open Acltk

theorem addKey_mem {l : List String} {k x : String} : x ∈ addKey l k ↔ x ∈ l ∨ x = k := by
  unfold addKey
  split
  · constructor
    · exact Or.inl
    · rintro (h | rfl)
      · exact h
      · assumption
  · simp

theorem foldl_addKey_mem {ks : List String} : ∀ {l : List String} {x : String},
    x ∈ ks.foldl addKey l ↔ x ∈ l ∨ x ∈ ks := by
  induction ks with
  | nil => intro l x; simp
  | cons k ks ih => intro l x; rw [List.foldl_cons, ih, addKey_mem, List.mem_cons, or_assoc]

theorem label_named (i : IfRef) : Named i i.label := by
  unfold IfRef.label
  split
  · rename_i n hn
    split
    · rename_i h0
      exact .alias (fun m hm => by rw [hn] at hm; cases hm; exact h0)
    · rename_i h0; exact .nameif n hn h0
  · rename_i hn
    exact .alias (fun m hm => by rw [hn] at hm; cases hm)

theorem named_unique {i : IfRef} {a b : String} (ha : Named i a) (hb : Named i b) : a = b := by
  cases ha with
  | nameif _ h1 h2 =>
    cases hb with
    | nameif _ h3 h4 => rw [h1] at h3; cases h3; rfl
    | alias h3 => exact absurd (h3 _ h1) h2
  | alias h1 =>
    cases hb with
    | nameif _ h3 h4 => exact absurd (h1 _ h3) h4
    | alias => rfl

theorem subst_stands (l : String) (n : Node') : Stands l n (subst l n) := by
  cases n with
  | host h => exact .host h
  | interface => exact .keyword

/-! ## C50 -/

/-- **C50 is violated** by every object NAT command with two different ports: both sides carry the
real port, the mapped port is lost. -/
theorem C50_violated (a : ObjNat) (p r m : String) (h : a.service = some (.service p r m)) (hne : r ≠ m) :
    ¬ PortsKept a (networkObjectNat a) ∧
    (networkObjectNat a).mapped.service = some { protocol := p, src := none, dst := some (.word r) } ∧
    (networkObjectNat a).real.service = some { protocol := p, src := none, dst := some (.word r) } := by
  have h1 : (networkObjectNat a).mapped.service = some { protocol := p, src := none, dst := some (.word r) } := by
    simp [networkObjectNat, h, ObjService.svc]
  have h2 : (networkObjectNat a).real.service = some { protocol := p, src := none, dst := some (.word r) } := by
    simp [networkObjectNat, h, ObjService.svc]
  refine ⟨?_, h1, h2⟩
  intro hk
  obtain ⟨-, s, hs, -, hc⟩ := hk p r m h
  rw [h1] at hs
  cases hs
  rcases hc with hc | hc
  · cases hc
  · exact hne (by simpa using hc)

/-- **C50, the part that holds**: identity port translation, and everything else of the command: the
interfaces, the type, the mapped address (the keyword stands for the mapped interface), any
destination, no service without a service clause, and the option keys. -/
theorem C50_object_nat_partial (a : ObjNat) :
    (∀ p r, a.service = some (.service p r r) → PortsKept a (networkObjectNat a)) ∧
    Named a.real (networkObjectNat a).real.iface ∧
    Named a.mapped (networkObjectNat a).mapped.iface ∧
    (networkObjectNat a).mapped.type = some a.type ∧
    (∃ n, (networkObjectNat a).mapped.src = some n ∧ Stands (networkObjectNat a).mapped.iface a.node n) ∧
    (networkObjectNat a).real.dst = some (.host .any) ∧ (networkObjectNat a).mapped.dst = some (.host .any) ∧
    ((∀ p r m, a.service ≠ some (.service p r m)) →
      (networkObjectNat a).real.service = none ∧ (networkObjectNat a).mapped.service = none) ∧
    (∀ k, k ∈ (networkObjectNat a).options ↔
      k = "auto" ∨ (a.service = some .dns ∧ k = "dns") ∨ k ∈ a.options) ∧
    (a.fallback = none → (networkObjectNat a).mapped.fallback = none) ∧
    (∀ f, a.fallback = some f → ∃ g, (networkObjectNat a).mapped.fallback = some g ∧ g.ipv6 = f.ipv6 ∧
      FallbackStands (networkObjectNat a).mapped.iface f.interface g.interface) := by
  refine ⟨?_, label_named _, label_named _, rfl, ⟨_, rfl, subst_stands _ _⟩, rfl, rfl, ?_, ?_, ?_, ?_⟩
  · intro p r h p' r' m' h'
    rw [h] at h'
    cases h'
    exact ⟨⟨{ protocol := p, src := none, dst := some (.word r) }, by simp [networkObjectNat, h, ObjService.svc], rfl, Or.inr rfl⟩,
      ⟨{ protocol := p, src := none, dst := some (.word r) }, by simp [networkObjectNat, h, ObjService.svc], rfl, Or.inr rfl⟩⟩
  · intro h
    cases hs : a.service with
    | none => simp [networkObjectNat, hs]
    | some s =>
      cases s with
      | dns => simp [networkObjectNat, hs, ObjService.svc]
      | service p r m => exact absurd hs (h p r m)
  · intro k
    simp only [networkObjectNat]
    rw [foldl_addKey_mem]
    cases hs : a.service with
    | none => simp
    | some s =>
      cases s with
      | dns => simp [addKey_mem, or_assoc]
      | service p r m => simp
  · intro h; simp [networkObjectNat, h]
  · intro f h
    refine ⟨_, by simp only [networkObjectNat, h, Option.map_some]; rfl, ?_, ?_⟩
    · split <;> rfl
    · simp only [networkObjectNat]
      split
      · rename_i h0; rw [h0]; exact .keyword
      · rename_i h0
        cases hf : f.interface with
        | none => exact .none
        | some x =>
          cases x with
          | none => exact absurd hf h0
          | some n => exact .named n

/-- `nat (inside,outside) static interface service tcp 21 2121` (an example of the tests). -/
def sampleNat : ObjNat where
  real := ⟨"Vlan1", some "inside"⟩
  mapped := ⟨"Vlan2", some "outside"⟩
  type := "static"
  node := .interface
  fallback := none
  service := some (.service "tcp" "21" "2121")
  options := []

/-- The hypotheses of `C50_violated` are met. -/
theorem C50_sample : ¬ PortsKept sampleNat (networkObjectNat sampleNat) :=
  (C50_violated sampleNat "tcp" "21" "2121" rfl (by decide)).1

/-! ## C54 -/

theorem covers_obj {nm : String} {l : List Host} {x : Addr} :
    Covers (.obj nm l) x ↔ ∃ h ∈ l, Covers h x := by
  constructor
  · intro h; cases h with | obj h1 h2 => exact ⟨_, h1, h2⟩
  · rintro ⟨h, h1, h2⟩; exact .obj h1 h2

/-- **C54 is violated** when the NAT line stands in a block of its own: the real source of the entry is
an object without addresses, whatever the object was defined with. -/
theorem C54_violated (l : List Block) (b : Block) (n : ObjNat) (hb : b.addresses = none) (hn : b.nat = some n)
    (hs : List Host) (hd : defined l b.name = some hs) (x : Addr) (k : Host) (hk : k ∈ hs) (hx : Covers k x) :
    ¬ TranslatesObject l b ∧
    ∃ e, (objectType b).2 = some e ∧ e.real.src = some (.host (.obj b.name [])) := by
  have h1 : ∃ e, (objectType b).2 = some e ∧ e.real.src = some (.host (.obj b.name [])) := by
    simp [objectType, hn, hb]
  refine ⟨?_, h1⟩
  intro h
  obtain ⟨e, h2, h3⟩ := h1
  obtain ⟨h', h4, h5⟩ := h e h2 hs hd
  rw [h3] at h4
  cases h4
  obtain ⟨y, hy, -⟩ := covers_obj.1 ((h5 x).2 ⟨k, hk, hx⟩)
  cases hy

/-- The consequence for filters: no source that is made of addresses, networks, objects and groups of
these matches the real source of such an entry. -/
theorem C54_violated_filter (b : Block) (e : Nat') (hb : b.addresses = none) (he : (objectType b).2 = some e)
    (f : Host) (hf : Ordinary f) (hw : ¬ HasWild f) (ha : ¬ HasAny f) (fuel : Nat) (hfuel : f.depth + 2 ≤ fuel) :
    ∃ h, e.real.src = some (.host h) ∧ meet fuel f h = .ok false := by
  refine ⟨.obj b.name [], ?_, ?_⟩
  · unfold objectType at he
    cases hn : b.nat with
    | none => rw [hn] at he; cases he
    | some n =>
      rw [hn] at he
      simp only [hb, Option.getD_none, Option.map_some, Option.some.injEq] at he
      subst he
      rfl
  · have ho : ∀ l, ¬ Leaf (.obj b.name []) l := by
      intro l h; cases h with | obj h1 _ => cases h1
    have hfuel' : f.depth + (Host.obj b.name []).depth + 1 ≤ fuel := by
      simp only [Host.depth, Host.depthList]; omega
    rcases C01_host_matching_is_intersection f (.obj b.name []) fuel hf (fun l h => absurd h (ho l)) hw
      (fun ⟨_, _, h⟩ => ho _ h) (fun h => absurd h ha) hfuel' with ⟨-, x, -, hx⟩ | ⟨h, -⟩
    · obtain ⟨y, hy, -⟩ := covers_obj.1 hx
      cases hy
    · exact h

/-- **C54, the part that holds**: a NAT line in the block that defines the addresses. -/
theorem C54_same_block_partial (l : List Block) (b : Block) (hs : List Host) (hb : b.addresses = some hs)
    (hd : defined l b.name = some hs) : TranslatesObject l b := by
  intro n hn hs' hd'
  rw [hd] at hd'
  cases hd'
  unfold objectType at hn
  simp only [hb, Option.getD_some] at hn
  cases hbn : b.nat with
  | none => rw [hbn] at hn; cases hn
  | some a =>
    rw [hbn] at hn
    simp only [Option.map_some, Option.some.injEq] at hn
    subst hn
    exact ⟨_, rfl, fun x => covers_obj⟩

/-- The hypotheses of `C54_violated` are met: address and NAT line in two blocks, as `show running-config`
prints them. -/
theorem C54_sample :
    let defn : Block := ⟨"web", some [.host ⟨.v4, 0x0a000005⟩], none⟩
    let nat : Block := ⟨"web", none, some sampleNat⟩
    ¬ TranslatesObject [defn, nat] nat := by
  intro defn nat
  exact (C54_violated [defn, nat] nat sampleNat rfl rfl _ (by simp [defined, defn, nat]) ⟨.v4, 0x0a000005⟩ _
    (List.mem_singleton.2 rfl) .host).1

/-- **C54, order**: the entries of the network objects are those of the blocks with a NAT line, in the
order of the file. -/
theorem C54_order_partial (l : List Block) :
    Pf.All2 (fun b e => (objectType b).2 = some e) (l.filter (fun b => b.nat.isSome)) (autoNat l) := by
  induction l with
  | nil => exact .nil
  | cons b l ih =>
    unfold autoNat
    cases hn : b.nat with
    | none =>
      have : (objectType b).2 = none := by simp [objectType, hn]
      rw [List.filter_cons_of_neg (by simp [hn]), List.filterMap_cons, this]
      exact ih
    | some n =>
      obtain ⟨e, he⟩ : ∃ e, (objectType b).2 = some e := ⟨_, by simp only [objectType, hn, Option.map_some]; rfl⟩
      rw [List.filter_cons_of_pos (by simp [hn]), List.filterMap_cons, he]
      exact .cons he ih

/-! ## C51 -/

theorem services_static {a b : Svc} :
    (a.SourceOnly → b.SourceOnly → services "static" (some (a, b)) = .ok (some a, some b)) ∧
    (a.DestOnly → b.DestOnly → services "static" (some (a, b)) = .ok (some b, some a)) := by
  constructor
  · rintro ⟨⟨p, h1⟩, h2⟩ ⟨⟨q, h3⟩, h4⟩
    simp [services, h1, h2, h3, h4]
  · rintro ⟨h1, p, h2⟩ ⟨h3, q, h4⟩
    simp [services, h1, h2, h3, h4]

/-- **C51 is violated** for dynamic NAT: the two services are swapped against the documentation
(`service mapped_dest_svc_obj real_dest_svc_obj`). -/
theorem C51_violated (c : Cmd) (ri mi : IfRef) (a b : Svc) (hi : c.iface = some (ri, mi))
    (ht : c.src.type = "dynamic") (hs : c.service = some (a, b)) (ha : a.DestOnly) (hb : b.DestOnly) (hne : a ≠ b) :
    Documented c.src.type a b b a ∧
    ∃ n, twiceNat c = .ok (some n) ∧ n.real.service = some a ∧ n.mapped.service = some b ∧
      ¬ ∃ r m, n.real.service = some r ∧ n.mapped.service = some m ∧ Documented c.src.type a b r m := by
  refine ⟨.dynamicDest ht ha hb, _, by simp only [twiceNat, hi, ht, hs, services]; rfl, rfl, rfl, ?_⟩
  rintro ⟨r, m, h1, h2, h3⟩
  simp only [Option.some.injEq] at h1 h2
  subst h1 h2
  rw [ht] at h3
  cases h3 with
  | staticSource ht' => exact absurd ht' (by decide)
  | staticDest ht' => exact absurd ht' (by decide)
  | dynamicDest => exact hne rfl

/-- **C51, the part that holds**: for static NAT with interfaces the command is accepted iff its
services have a documented meaning, and then it has that meaning; without a service clause there are
no services. -/
theorem C51_static_partial (c : Cmd) (ri mi : IfRef) (hi : c.iface = some (ri, mi)) (ht : c.src.type = "static") :
    (c.service = none → ∃ n, twiceNat c = .ok (some n) ∧ n.real.service = none ∧ n.mapped.service = none) ∧
    ∀ a b, c.service = some (a, b) →
      ((∃ r m, Documented "static" a b r m) →
        ∃ n r m, twiceNat c = .ok (some n) ∧ n.real.service = some r ∧ n.mapped.service = some m ∧
          Documented "static" a b r m) ∧
      ((¬ ∃ r m, Documented "static" a b r m) → twiceNat c = .error .attribute) := by
  constructor
  · intro hs
    exact ⟨_, by simp only [twiceNat, hi, ht, hs, services]; rfl, rfl, rfl⟩
  · intro a b hs
    constructor
    · rintro ⟨r, m, hd⟩
      cases hd with
      | dynamicDest ht' => exact absurd ht' (by decide)
      | staticSource _ h1 h2 =>
        exact ⟨_, a, b, by simp only [twiceNat, hi, ht, hs, services_static.1 h1 h2]; rfl, rfl, rfl, .staticSource rfl h1 h2⟩
      | staticDest _ h1 h2 =>
        exact ⟨_, b, a, by simp only [twiceNat, hi, ht, hs, services_static.2 h1 h2]; rfl, rfl, rfl, .staticDest rfl h1 h2⟩
    · intro hnd
      have : services "static" (some (a, b)) = .error .attribute := by
        unfold services
        simp only [if_true]
        split
        · rename_i h
          simp only [Bool.and_eq_true, Bool.not_eq_true', Option.isSome_iff_exists, Option.isSome_eq_false_iff,
            Option.isNone_iff_eq_none] at h
          exact absurd ⟨a, b, .staticSource rfl ⟨h.1.1.1, h.1.1.2⟩ ⟨h.1.2, h.2⟩⟩ hnd
        · split
          · rename_i h
            simp only [Bool.and_eq_true, Bool.not_eq_true', Option.isSome_iff_exists, Option.isSome_eq_false_iff,
              Option.isNone_iff_eq_none] at h
            exact absurd ⟨b, a, .staticDest rfl ⟨h.1.1.1, h.1.1.2⟩ ⟨h.1.2, h.2⟩⟩ hnd
          · rfl
      simp only [twiceNat, hi, ht, hs, this]
      rfl

/-! ## C62 -/

theorem foldl_option {os : List (String × Option String)} : ∀ {d : Option String} {l : List String},
    (∀ k, k ∈ (os.foldl optionStep (d, l)).2 ↔ k ∈ l ∨ (k ≠ "description" ∧ k ∈ os.map (·.1))) ∧
    (os.foldl optionStep (d, l)).1 = (((os.filter (fun o => o.1 == "description")).map (·.2)).getLast?).getD d := by
  induction os with
  | nil => intro d l; simp
  | cons o os ih =>
    intro d l
    rw [List.foldl_cons]
    by_cases ho : o.1 = "description"
    · have : optionStep (d, l) o = (o.2, l) := by simp [optionStep, ho]
      rw [this]
      constructor
      · intro k
        rw [(ih (d := o.2) (l := l)).1 k]
        simp only [List.map_cons, List.mem_cons, ho]
        constructor
        · rintro (h | ⟨h1, h2⟩)
          · exact Or.inl h
          · exact Or.inr ⟨h1, Or.inr h2⟩
        · rintro (h | ⟨h1, h2 | h2⟩)
          · exact Or.inl h
          · exact absurd h2 h1
          · exact Or.inr ⟨h1, h2⟩
      · rw [(ih (d := o.2) (l := l)).2]
        simp [ho, List.getLast?_cons]
    · have : optionStep (d, l) o = (d, addKey l o.1) := by simp [optionStep, ho]
      rw [this]
      constructor
      · intro k
        rw [(ih (d := d) (l := addKey l o.1)).1 k, addKey_mem]
        simp only [List.map_cons, List.mem_cons]
        constructor
        · rintro ((h | rfl) | ⟨h1, h2⟩)
          · exact Or.inl h
          · exact Or.inr ⟨ho, Or.inl rfl⟩
          · exact Or.inr ⟨h1, Or.inr h2⟩
        · rintro (h | ⟨h1, h2 | h2⟩)
          · exact Or.inl (Or.inl h)
          · exact Or.inl (Or.inr h2)
          · exact Or.inr ⟨h1, h2⟩
      · rw [(ih (d := d) (l := addKey l o.1)).2]
        simp [ho]

/-- **C62.** A twice NAT command with interfaces that is accepted yields an entry whose real and
mapped side have the written interface and nodes, the keyword `interface` standing for the interface
of its side; the fallback interface is the mapped one; the option keys are exactly the written
options, plus `after-auto` exactly for a position; the description is the last one written.  A
command without interfaces yields nothing. -/
theorem C62_twice_nat (c : Cmd) :
    (c.iface = none → twiceNat c = .ok none) ∧
    ∀ n, twiceNat c = .ok (some n) → ∃ ri mi, c.iface = some (ri, mi) ∧
      Named ri n.real.iface ∧ Named mi n.mapped.iface ∧ n.mapped.type = some c.src.type ∧
      (∃ s, n.real.src = some s ∧ Stands n.real.iface c.src.real s) ∧
      (∃ s, n.mapped.src = some s ∧ Stands n.mapped.iface c.src.mapped s) ∧
      (c.dst = none → n.real.dst = none ∧ n.mapped.dst = none) ∧
      (∀ r m, c.dst = some (r, m) → ∃ r' m', n.real.dst = some r' ∧ n.mapped.dst = some m' ∧
        Stands n.real.iface r r' ∧ Stands n.mapped.iface m m') ∧
      (∀ f, n.mapped.fallback = some f → f.interface = some (some n.mapped.iface) ∧
        ∃ f0, c.src.fallback = some f0 ∧ f.ipv6 = f0.ipv6) ∧
      (n.mapped.fallback = none → c.src.fallback = none) ∧
      (∀ k, k ∈ n.options ↔ (k ≠ "description" ∧ k ∈ c.options.map (·.1)) ∨ (c.pos = true ∧ k = "after-auto")) ∧
      n.description = (((c.options.filter (fun o => o.1 == "description")).map (·.2)).getLast?).getD none := by
  constructor
  · intro h; simp [twiceNat, h]
  · intro n h
    unfold twiceNat at h
    split at h
    · cases h
    · rename_i ri mi hi
      cases hsv : services c.src.type c.service with
      | error e => rw [hsv] at h; cases h
      | ok sv =>
        rw [hsv] at h
        simp only [bind, Except.bind, Except.ok.injEq, Option.some.injEq] at h
        subst h
        refine ⟨ri, mi, hi, label_named _, label_named _, rfl, ⟨_, rfl, subst_stands _ _⟩, ⟨_, rfl, subst_stands _ _⟩,
          ?_, ?_, ?_, ?_, ?_, ?_⟩
        · intro h; simp [h]
        · intro r m h
          simp only [h, Option.map_some]
          exact ⟨_, _, rfl, rfl, subst_stands _ _, subst_stands _ _⟩
        · intro f hf
          simp only [Option.map_eq_some_iff] at hf
          obtain ⟨f0, h0, rfl⟩ := hf
          exact ⟨rfl, f0, h0, rfl⟩
        · intro hf
          simpa using hf
        · intro k
          simp only
          cases hp : c.pos with
          | true =>
            simp only [if_true, addKey_mem, (foldl_option (os := c.options) (d := none) (l := [])).1 k]
            simp
          | false =>
            simp only [Bool.false_eq_true, if_false, (foldl_option (os := c.options) (d := none) (l := [])).1 k]
            simp
        · exact (foldl_option (os := c.options) (d := none) (l := [])).2

/-- `nat (inside,outside) after-auto 1 source dynamic A interface destination static B B service TELNET WWW
inactive description x` -/
def sampleCmd : Cmd where
  iface := some (⟨"Vlan1", some "inside"⟩, ⟨"Vlan2", some "outside"⟩)
  pos := true
  src := ⟨"dynamic", .host (.obj "A" [.host ⟨.v4, 1⟩]), .interface, none⟩
  dst := some (.host (.obj "B" []), .host (.obj "B" []))
  service := some ({ name := some "TELNET", protocol := "tcp", src := none, dst := some (.cond (.port "eq" "telnet")) },
    { name := some "WWW", protocol := "tcp", src := none, dst := some (.cond (.port "eq" "www")) })
  options := [("inactive", none), ("description", some "x")]

/-- The hypotheses of `C51_violated` are met. -/
theorem C51_sample : ∃ n, twiceNat sampleCmd = .ok (some n) ∧
    (n.real.service.bind (·.name)) = some "TELNET" ∧ n.options = ["inactive", "after-auto"] ∧
    n.description = some "x" := by
  obtain ⟨-, n, h1, h2, -⟩ := C51_violated sampleCmd _ _ _ _ rfl rfl rfl ⟨rfl, _, rfl⟩ ⟨rfl, _, rfl⟩ (by decide)
  refine ⟨n, h1, by rw [h2]; rfl, ?_, ?_⟩
  · cases (h1 : Except.ok _ = _)
    rfl
  · cases (h1 : Except.ok _ = _)
    rfl

end Acltk.NatCmd
