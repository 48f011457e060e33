import Verif.Lemmas.RowWords
import Verif.Props.Cells
import Verif.Props.Lookup
/-!
# C116: what the row of a rule says
-/
namespace Acltk.Cells
open Acltk Acltk.AclText
open Acltk.FwsmText (PortOk IcmpOk OptionsOk RowOk)

/-! ## ports -/

/-- What follows a hyphen in `s`. -/
def afterHyphen : List Char → List (List Char)
  | [] => []
  | c :: s => if c = '-' then s :: afterHyphen s else afterHyphen s

theorem mem_afterHyphen (p z : List Char) : z ∈ afterHyphen (p ++ '-' :: z) := by
  induction p with
  | nil => simp [afterHyphen]
  | cons c p ih =>
    rw [List.cons_append, afterHyphen]
    split
    · exact List.mem_cons_of_mem _ ih
    · exact ih

/-- No service is named like the end of another one, behind a hyphen, and a hyphen. -/
theorem services : ∀ a ∈ Words.ports, ∀ z ∈ afterHyphen a.toList, ∀ x ∈ Words.ports, (z ++ ['-']).isPrefixOf x.toList = false := by decide +kernel

theorem hyphen_service {w : String} (h : PortText w) (hm : '-' ∈ w.toList) : w ∈ Words.ports := by
  rcases h with h | h
  · exact h
  · exact absurd (h.2 _ hm) (by decide)

theorem append_cases {a b c d : List Char} (h : a ++ '-' :: b = c ++ '-' :: d) : a = c ∧ b = d ∨ (∃ z, c = a ++ '-' :: z ∧ b = z ++ '-' :: d) ∨ (∃ z, a = c ++ '-' :: z ∧ d = z ++ '-' :: b) := by
  induction a generalizing c with
  | nil =>
    cases c with
    | nil => simp at h; exact .inl ⟨rfl, h⟩
    | cons x c =>
      simp only [List.nil_append, List.cons_append, List.cons.injEq] at h
      exact .inr (.inl ⟨c, by rw [← h.1]; rfl, h.2⟩)
  | cons x a ih =>
    cases c with
    | nil =>
      simp only [List.nil_append, List.cons_append, List.cons.injEq] at h
      exact .inr (.inr ⟨a, by rw [h.1]; rfl, h.2.symm⟩)
    | cons y c =>
      simp only [List.cons_append, List.cons.injEq] at h
      obtain ⟨rfl, h⟩ := h
      rcases ih h with ⟨rfl, rfl⟩ | ⟨z, rfl, rfl⟩ | ⟨z, rfl, rfl⟩
      · exact .inl ⟨rfl, rfl⟩
      · exact .inr (.inl ⟨z, rfl, rfl⟩)
      · exact .inr (.inr ⟨z, rfl, rfl⟩)

theorem no_overlap {a c b : String} {z d : List Char} (hc : PortText c) (hb : PortText b) (h1 : c.toList = a.toList ++ '-' :: z) (h2 : b.toList = z ++ '-' :: d) : False := by
  have h3 := services c (hyphen_service hc (by rw [h1]; simp)) z (by rw [h1]; exact mem_afterHyphen _ _) b (hyphen_service hb (by rw [h2]; simp))
  rw [h2] at h3
  have : (z ++ ['-']).isPrefixOf (z ++ '-' :: d) = true := by
    rw [List.isPrefixOf_iff_prefix]
    exact ⟨d, by simp⟩
  rw [this] at h3
  cases h3

/-- Two ports with a hyphen between them are told apart. -/
theorem range_unique {a b c d : String} (ha : PortText a) (hb : PortText b) (hc : PortText c) (hd : PortText d)
    (h : a.toList ++ '-' :: b.toList = c.toList ++ '-' :: d.toList) : a = c ∧ b = d := by
  rcases append_cases h with ⟨h1, h2⟩ | ⟨z, h1, h2⟩ | ⟨z, h1, h2⟩
  · exact ⟨String.toList_inj.1 h1, String.toList_inj.1 h2⟩
  · exact (no_overlap (a := a) hc hb h1 h2).elim
  · exact (no_overlap (a := c) ha hd h1 h2).elim

theorem ports_no_blank : ∀ w ∈ Words.ports, ' ' ∉ w.toList := by decide +kernel

theorem PortText.no_blank {w : String} (h : PortText w) : ' ' ∉ w.toList := by
  rcases h with h | h
  · exact ports_no_blank w h
  · intro hm
    exact absurd (h.2 _ hm) (by decide)

theorem op_no_blank : ∀ op ∈ ["gt", "lt", "eq", "neq"], ' ' ∉ op.toList := by decide +kernel

theorem port_reads (nm : Nat → String) {p : Option PortVal} (hp : PortOk p) : ∃ x, PortIs nm p x ∧ ReadsPortVal (portValCell nm p) x := by
  match p with
  | none => exact ⟨_, .nothing, .nothing⟩
  | some (.port op num) => exact ⟨_, .single op num, .single op num hp⟩
  | some (.range a b) => exact ⟨_, .range a b, .range a b hp.1 hp.2⟩
  | some (.group o) => exact ⟨_, .group o, .group _⟩
  | some (.service o) => exact hp.elim

/-- The same as `ReadsPortVal`, with equations. -/
def PortInv (c : Cell) : PortShown → Prop
  | .nothing => c = .text []
  | .single op num => op ∈ ["gt", "lt", "eq", "neq"] ∧ c = .text (op.toList ++ ' ' :: num.toList)
  | .range a b => PortText a ∧ PortText b ∧ c = .text (a.toList ++ '-' :: b.toList)
  | .group n => c = .link ("port_group_" ++ n) n.toList

theorem port_inv {c : Cell} {x : PortShown} (h : ReadsPortVal c x) : PortInv c x := by
  cases h with
  | nothing => rfl
  | single op num h => exact ⟨h, rfl⟩
  | range a b h1 h2 => exact ⟨h1, h2, rfl⟩
  | group n => rfl

theorem port_unique {c : Cell} {x y : PortShown} (hx : ReadsPortVal c x) (hy : ReadsPortVal c y) : x = y := by
  have ix := port_inv hx
  have iy := port_inv hy
  cases x with
  | nothing =>
    cases ix
    cases y with
    | nothing => rfl
    | single op num => have := iy.2; simp at this
    | range a b => have := iy.2.2; simp at this
    | group n => cases iy
  | single op num =>
    obtain ⟨h1, rfl⟩ := ix
    cases y with
    | nothing => simp [PortInv] at iy
    | single op' num' =>
      have h2 := iy.2
      simp only [Cell.text.injEq] at h2
      obtain ⟨e1, e2⟩ := split_at (op_no_blank _ h1) (op_no_blank _ iy.1) h2
      rw [String.toList_inj.1 e1, String.toList_inj.1 e2]
    | range a b =>
      have h2 := iy.2.2
      simp only [Cell.text.injEq] at h2
      have : ' ' ∈ a.toList ++ '-' :: b.toList := by rw [← h2]; simp
      simp [iy.1.no_blank, iy.2.1.no_blank] at this
    | group n => cases iy
  | range a b =>
    obtain ⟨h1, h1', rfl⟩ := ix
    cases y with
    | nothing => simp [PortInv] at iy
    | single op' num' =>
      have h2 := iy.2
      simp only [Cell.text.injEq] at h2
      have : ' ' ∈ a.toList ++ '-' :: b.toList := by rw [h2]; simp
      simp [h1.no_blank, h1'.no_blank] at this
    | range a' b' =>
      have h2 := iy.2.2
      simp only [Cell.text.injEq] at h2
      obtain ⟨rfl, rfl⟩ := range_unique h1 h1' iy.1 iy.2.1 h2
      rfl
    | group n => cases iy
  | group n =>
    cases ix
    cases y with
    | nothing => cases iy
    | single op num => cases iy.2
    | range a b => cases iy.2.2
    | group m => rw [String.toList_inj.1 (Cell.link.inj iy).2]

theorem portIs_unique {nm : Nat → String} {p : Option PortVal} {x y : PortShown} (hx : PortIs nm p x) (hy : PortIs nm p y) : x = y := by
  cases hx <;> cases hy <;> rfl

theorem port_iff (nm : Nat → String) {p : Option PortVal} (hp : PortOk p) (x : PortShown) : ReadsPortVal (portValCell nm p) x ↔ PortIs nm p x := by
  obtain ⟨y, h1, h2⟩ := port_reads nm hp
  constructor
  · intro h; rw [port_unique h h2]; exact h1
  · intro h; rw [portIs_unique h h1]; exact h2

/-! ## protocols -/

def ProtoInv (c : Cell) : ProtoShown → Prop
  | .name s => c = .text s.toList
  | .protocolGroup n => c = .link ("protocol_group_" ++ n) n.toList
  | .serviceGroup n => c = .link ("service_group_" ++ n) n.toList
  | .serviceObject n => c = .link ("service_object_" ++ n) n.toList

theorem proto_inv {c : Cell} {x : ProtoShown} (h : ReadsProto c x) : ProtoInv c x := by cases h <;> rfl

theorem proto_unique {c : Cell} {x y : ProtoShown} (hx : ReadsProto c x) (hy : ReadsProto c y) : x = y := by
  have ix := proto_inv hx
  have iy := proto_inv hy
  cases x <;> cases y <;> simp only [ProtoInv] at ix iy <;> subst ix <;> simp only [Cell.text.injEq, Cell.link.injEq, reduceCtorEq] at iy
  case name.name => rw [String.toList_inj.1 iy]
  case protocolGroup.protocolGroup => rw [String.toList_inj.1 iy.2]
  case serviceGroup.serviceGroup => rw [String.toList_inj.1 iy.2]
  case serviceObject.serviceObject => rw [String.toList_inj.1 iy.2]
  all_goals
    have := congrArg String.toList iy.1
    simp [String.toList_append] at this

theorem proto_iff (nm : Nat → String) (p : Proto) (x : ProtoShown) : ReadsProto (protocolCell nm p) x ↔ ProtoIs nm p x := by
  have h : ∃ y, ProtoIs nm p y ∧ ReadsProto (protocolCell nm p) y := by
    cases p with
    | name s => exact ⟨_, .name s, .name s⟩
    | protoGroup o => exact ⟨_, .protocolGroup o, .protocolGroup _⟩
    | svcGroup o => exact ⟨_, .serviceGroup o, .serviceGroup _⟩
    | svcObj o => exact ⟨_, .serviceObject o, .serviceObject _⟩
  obtain ⟨y, h1, h2⟩ := h
  constructor
  · intro h; rw [proto_unique h h2]; exact h1
  · intro h
    have : x = y := by cases h <;> cases h1 <;> rfl
    rw [this]; exact h2

theorem proto_icmp {nm : Nat → String} {p : Proto} {x : ProtoShown} (h : ProtoIs nm p x) : x = .name "icmp" ↔ p = .name "icmp" := by
  cases h <;> simp

/-! ## icmp -/

def IcmpInv (c : Cell) : IcmpShown → Prop
  | .nothing => c = .text []
  | .type s none => s ≠ "" ∧ c = .text s.toList
  | .type _ (some _) => False
  | .group n => c = .link ("icmp_group_" ++ n) n.toList

theorem icmp_inv {c : Cell} {x : IcmpShown} (h : ReadsIcmp c x) : IcmpInv c x := by
  cases h with
  | nothing => rfl
  | type s h => exact ⟨h, rfl⟩
  | group n => rfl

theorem toList_ne {s : String} (h : s ≠ "") : s.toList ≠ [] := by
  intro e
  exact h (String.toList_inj.1 (by rw [e]; rfl))

theorem icmp_unique {c : Cell} {x y : IcmpShown} (hx : ReadsIcmp c x) (hy : ReadsIcmp c y) : x = y := by
  have ix := icmp_inv hx
  have iy := icmp_inv hy
  match x with
  | .nothing =>
    cases ix
    match y with
    | .nothing => rfl
    | .type s none => exact absurd (Cell.text.inj iy.2).symm (toList_ne iy.1)
    | .type _ (some _) => exact iy.elim
    | .group n => cases iy
  | .type s none =>
    obtain ⟨h1, rfl⟩ := ix
    match y with
    | .nothing => exact absurd (Cell.text.inj iy) (toList_ne h1)
    | .type s' none => rw [String.toList_inj.1 (Cell.text.inj iy.2)]
    | .type _ (some _) => exact iy.elim
    | .group n => cases iy
  | .type _ (some _) => exact ix.elim
  | .group n =>
    cases ix
    match y with
    | .nothing => cases iy
    | .type s none => cases iy.2
    | .type _ (some _) => exact iy.elim
    | .group m => rw [String.toList_inj.1 (Cell.link.inj iy).2]

theorem icmp_iff (nm : Nat → String) {i : Option IcmpVal} (hi : IcmpOk i) (hc : ∀ ty c, i = some (.icmp ty c) → c = none) (x : IcmpShown) : ReadsIcmp (icmpCell nm i) x ↔ IcmpIs nm i x := by
  have h : ∃ y, IcmpIs nm i y ∧ ReadsIcmp (icmpCell nm i) y := by
    match i with
    | none => exact ⟨_, .nothing, .nothing⟩
    | some (.icmp ty c) =>
      have := hc ty c rfl
      subst this
      exact ⟨_, .type ty none, .type ty hi⟩
    | some (.group o) => exact ⟨_, .group o, .group _⟩
  obtain ⟨y, h1, h2⟩ := h
  constructor
  · intro h; rw [icmp_unique h h2]; exact h1
  · intro h
    have : x = y := by cases h <;> cases h1 <;> rfl
    rw [this]; exact h2

/-! ## options -/

theorem dGet_mem_iff {d : Dict String Opt} (h : OptionsOk d) (k : String) (o : Opt) : dGet d k = some o ↔ (k, o) ∈ d := by
  obtain ⟨-, h⟩ := h
  constructor
  · exact FwsmText.mem_dGet
  · induction d with
    | nil => intro hm; cases hm
    | cons p d ih =>
      obtain ⟨k', o'⟩ := p
      simp only [List.map_cons, List.nodup_cons] at h
      intro hm
      rcases List.mem_cons.1 hm with e | hm
      · cases e; simp [dGet]
      · have : k' ≠ k := by
          rintro rfl
          exact h.1 (List.mem_map.2 ⟨_, hm, rfl⟩)
        simp only [dGet, if_neg this]
        exact ih h.2 hm

theorem optionCells_mem (nm : Nat → String) {d : Dict String Opt} (h : OptionsOk d) (c : Cell) : c ∈ optionCells nm d ↔ ∃ p ∈ d, c ∈ optionCell nm p.2 := by
  unfold optionCells
  rw [List.mem_flatMap]
  constructor
  · rintro ⟨k, -, hc⟩
    split at hc
    · rename_i o ho
      exact ⟨_, FwsmText.mem_dGet ho, hc⟩
    · cases hc
  · rintro ⟨⟨k, o⟩, hp, hc⟩
    have hk := h.1 _ hp
    refine ⟨k, ?_, ?_⟩
    · cases o <;> simp [Opt.key] at hk <;> subst hk <;> simp
    · rw [(dGet_mem_iff h k o).2 hp]
      exact hc

theorem inactive_iff (nm : Nat → String) {d : Dict String Opt} (h : OptionsOk d) : Cell.text "inactive".toList ∈ optionCells nm d ↔ ("inactive", Opt.inactive) ∈ d := by
  rw [optionCells_mem nm h]
  constructor
  · rintro ⟨⟨k, o⟩, hp, hc⟩
    have hk := h.1 _ hp
    cases o with
    | inactive => simp [Opt.key] at hk; subst hk; exact hp
    | log l => simp [optionCell] at hc
    | timeRange o => simp [optionCell] at hc
    | none => simp [optionCell] at hc
  · intro hp
    exact ⟨_, hp, by simp [optionCell]⟩

theorem time_iff (nm : Nat → String) {d : Dict String Opt} (h : OptionsOk d) (n : String) :
    Cell.link ("time_range_" ++ n) n.toList ∈ optionCells nm d ↔ ∃ o, ("time-range", Opt.timeRange o) ∈ d ∧ nm o = n := by
  rw [optionCells_mem nm h]
  constructor
  · rintro ⟨⟨k, o⟩, hp, hc⟩
    have hk := h.1 _ hp
    cases o with
    | inactive => simp [optionCell] at hc
    | log l => simp [optionCell] at hc
    | timeRange o =>
      simp [Opt.key] at hk
      subst hk
      simp only [optionCell, List.mem_singleton] at hc
      exact ⟨o, hp, (String.toList_inj.1 (Cell.link.inj hc).2).symm⟩
    | none => simp [optionCell] at hc
  · rintro ⟨o, hp, rfl⟩
    exact ⟨_, hp, by simp [optionCell]⟩

theorem log_iff (nm : Nat → String) {d : Dict String Opt} (h : OptionsOk d) : Cell.text "log".toList ∈ optionCells nm d ↔ ∃ l, ("log", Opt.log l) ∈ d := by
  rw [optionCells_mem nm h]
  constructor
  · rintro ⟨⟨k, o⟩, hp, hc⟩
    have hk := h.1 _ hp
    cases o with
    | inactive => simp [optionCell] at hc
    | log l => simp [Opt.key] at hk; subst hk; exact ⟨l, hp⟩
    | timeRange o => simp [optionCell] at hc
    | none => simp [optionCell] at hc
  · rintro ⟨l, hp⟩
    exact ⟨_, hp, by simp [optionCell]⟩

/-! ## rows -/

/-- **C116.** If the columns leave nothing out, the row of a rule is read as that rule and as nothing else. -/
theorem C116_row_partial (nm : Nat → String) (s t : Option String) {wild : Bool} (r : PRule) (hr : RowOk r) (h1 : Configured wild r.src.host) (h2 : Configured wild r.dst.host)
    (hn : NothingLost r) (x : RowShown) : RowReads (row nm s t r) x ↔ RowIs nm r x := by
  have e1 := C115_host s r.src.host h1 x.src
  have e2 := C115_host t r.dst.host h2 x.dst
  have e3 := port_iff nm hr.src x.sport
  have e4 := proto_iff nm r.protocol x.protocol
  have e5 := inactive_iff nm hr.options
  have e6 := time_iff nm hr.options
  have e7 := log_iff nm hr.options
  have hd : (row nm s t r).dst = hostCell t r.dst.host := by simp [row, hn.url]
  constructor
  · intro h
    have hp := e4.1 h.protocol
    have hl : PortIs nm r.dst.port x.dport ∧ IcmpIs nm r.icmp x.icmp := by
      by_cases hi : r.protocol = .name "icmp"
      · obtain ⟨h3, h4⟩ := h.icmp ((proto_icmp hp).2 hi)
        have h5 : (row nm s t r).last = icmpCell nm r.icmp := by simp [row, hi]
        rw [h5, icmp_iff nm hr.icmp (hn.icmp hi).2] at h4
        refine ⟨?_, h4⟩
        rw [h3, (hn.icmp hi).1]
        exact .nothing
      · obtain ⟨h3, h4⟩ := h.port (fun e => hi ((proto_icmp hp).1 e))
        have h5 : (row nm s t r).last = portValCell nm r.dst.port := by simp [row, hi]
        rw [h5, port_iff nm hr.dst] at h4
        refine ⟨h4, ?_⟩
        rw [h3, hn.other hi]
        exact .nothing
    exact ⟨String.toList_inj.1 h.mode, hp, e1.1 h.src, e3.1 h.sport, e2.1 (hd ▸ h.dst), hl.1, hl.2, h.inactive.trans e5, fun n => (h.time n).trans (e6 n), h.log.trans e7⟩
  · intro h
    refine ⟨congrArg String.toList h.mode, e4.2 h.protocol, e1.2 h.src, e3.2 h.sport, hd ▸ e2.2 h.dst, ?_, ?_, h.inactive.trans e5.symm, fun n => (h.time n).trans (e6 n).symm, h.log.trans e7.symm⟩
    · intro hi
      have hi' := (proto_icmp h.protocol).1 hi
      have h5 : (row nm s t r).last = icmpCell nm r.icmp := by simp [row, hi']
      rw [h5, icmp_iff nm hr.icmp (hn.icmp hi').2]
      refine ⟨?_, h.icmp⟩
      have := h.dport
      rw [(hn.icmp hi').1] at this
      generalize x.dport = y at this
      cases this
      rfl
    · intro hi
      have hi' := fun e => hi ((proto_icmp h.protocol).2 e)
      have h5 : (row nm s t r).last = portValCell nm r.dst.port := if_neg hi'
      rw [h5, port_iff nm hr.dst]
      refine ⟨?_, h.dport⟩
      have := h.icmp
      rw [hn.other hi'] at this
      generalize x.icmp = y at this
      cases this
      rfl

/-- **C116, FWSM/ASA texts.** Whatever text is accepted, the row of every rule the columns leave nothing out of is read as that rule and as nothing else. -/
theorem C116_fwsm_partial (g : Lookup.Guard) (t u : List Char) (items : List FwsmText.Item) (h : FwsmText.parseFile g t = .ok items u) (r : PRule) (hr : FwsmText.Item.rule r ∈ items)
    (hn : NothingLost r) (nm : Nat → String) (a b : Option String) (x : RowShown) : RowReads (row nm a b r) x ↔ RowIs nm r x :=
  C116_row_partial nm a b r (FwsmText.parseFile_rows h _ hr) (Accepted.C94_fwsm_hosts g t u items h _ hr _ (.src r)) (Accepted.C94_fwsm_hosts g t u items h _ hr _ (.dst r)) hn x

/-- Equal rows are rows of rules with the same mode, protocol, hosts, ports, icmp type, activity, time range and logging, up to objects of the same name. -/
theorem C116_equal_rows_partial (g g' : Lookup.Guard) (t u t' u' : List Char) (items items' : List FwsmText.Item) (h : FwsmText.parseFile g t = .ok items u) (h' : FwsmText.parseFile g' t' = .ok items' u')
    (r r' : PRule) (hr : FwsmText.Item.rule r ∈ items) (hr' : FwsmText.Item.rule r' ∈ items') (hn : NothingLost r) (hn' : NothingLost r') (nm nm' : Nat → String) (a b a' b' : Option String)
    (he : row nm a b r = row nm' a' b' r') (x : RowShown) : RowIs nm r x ↔ RowIs nm' r' x := by
  rw [← C116_fwsm_partial g t u items h r hr hn nm a b, ← C116_fwsm_partial g' t' u' items' h' r' hr' hn' nm' a' b', he]

/-- **C116 is violated by icmp codes:** rules of the protocol icmp that differ in the code have the same row. -/
theorem C116_violated_code (nm : Nat → String) (s t : Option String) (r : PRule) (ty : String) (c c' : Option String) :
    row nm s t { r with icmp := some (.icmp ty c) } = row nm s t { r with icmp := some (.icmp ty c') } := rfl

/-- **C116 is violated by every other protocol with icmp types** (icmp6): rules that differ in the type have the same row. -/
theorem C116_violated_icmp6 (nm : Nat → String) (s t : Option String) (r : PRule) (h : r.protocol ≠ .name "icmp") (i j : Option IcmpVal) :
    row nm s t { r with icmp := i } = row nm s t { r with icmp := j } := by
  simp [row, h]

/-- **C116 is violated by ports of the protocol icmp**, which the parser accepts: the port of the destination is in no column. -/
theorem C116_violated_port (nm : Nat → String) (s t : Option String) (r : PRule) (h : r.protocol = .name "icmp") (p q : Option PortVal) :
    row nm s t { r with dst := { r.dst with port := p } } = row nm s t { r with dst := { r.dst with port := q } } := by
  simp [row, h]

/-- The first rule of a text. -/
def firstRule (t : String) : Option PRule :=
  match FwsmText.parseFile Lookup.tatsuGuard t.toList with
  | .ok (.rule r :: _) _ => some r
  | _ => none

theorem firstRule_some {t : String} {f : PRule → Bool} (h : (firstRule t).any f = true) : ∃ items u r, FwsmText.parseFile Lookup.tatsuGuard t.toList = .ok items u ∧ FwsmText.Item.rule r ∈ items ∧ f r = true := by
  unfold firstRule at h
  split at h
  · rename_i r l u hp
    exact ⟨_, _, r, hp, List.mem_cons_self, h⟩
  · cases h

/-- Texts with such rules are accepted. -/
theorem C116_violated_sample :
    (∃ items u r, FwsmText.parseFile Lookup.tatsuGuard "access-list a extended permit icmp any any unreachable 3\n".toList = .ok items u ∧ FwsmText.Item.rule r ∈ items ∧
      (decide (r.protocol = .name "icmp") && decide (r.icmp = some (.icmp "unreachable" (some "3")))) = true) ∧
    (∃ items u r, FwsmText.parseFile Lookup.tatsuGuard "access-list a extended permit icmp6 any any echo\n".toList = .ok items u ∧ FwsmText.Item.rule r ∈ items ∧
      (decide (r.protocol = .name "icmp6") && decide (r.icmp = some (.icmp "echo" none))) = true) ∧
    (∃ items u r, FwsmText.parseFile Lookup.tatsuGuard "access-list a extended permit icmp any any eq 80\n".toList = .ok items u ∧ FwsmText.Item.rule r ∈ items ∧
      (decide (r.protocol = .name "icmp") && decide (r.dst.port = some (.port "eq" "80"))) = true) :=
  ⟨firstRule_some (f := fun r => decide (r.protocol = .name "icmp") && decide (r.icmp = some (.icmp "unreachable" (some "3")))) (by decide +kernel),
   firstRule_some (f := fun r => decide (r.protocol = .name "icmp6") && decide (r.icmp = some (.icmp "echo" none))) (by decide +kernel),
   firstRule_some (f := fun r => decide (r.protocol = .name "icmp") && decide (r.dst.port = some (.port "eq" "80"))) (by decide +kernel)⟩

/-- The hypotheses are met: a rule with ports, and an inactive one of icmp with a type. -/
theorem C116_sample :
    (∃ items u r, FwsmText.parseFile Lookup.tatsuGuard "access-list a extended permit tcp host 10.0.0.1 eq www 10.0.0.0 255.0.0.0 range ftp-data ftp\n".toList = .ok items u ∧ FwsmText.Item.rule r ∈ items ∧
      NothingLost r ∧ (row (fun _ => "") none none r).sport = .text "eq www".toList ∧ (row (fun _ => "") none none r).last = .text "ftp-data-ftp".toList ∧
      (row (fun _ => "") none none r).dst = .text "10.0.0.0/8".toList) ∧
    (∃ items u r, FwsmText.parseFile Lookup.tatsuGuard "access-list a extended deny icmp any any echo inactive\n".toList = .ok items u ∧ FwsmText.Item.rule r ∈ items ∧
      NothingLost r ∧ (row (fun _ => "") none none r).last = .text "echo".toList ∧ (row (fun _ => "") none none r).options = [.text "inactive".toList]) := by
  constructor
  · obtain ⟨items, u, r, h1, h2, h3⟩ := firstRule_some (t := "access-list a extended permit tcp host 10.0.0.1 eq www 10.0.0.0 255.0.0.0 range ftp-data ftp\n")
      (f := fun r => decide (r.protocol = .name "tcp") && decide (r.icmp = none) && decide (r.url = none) && decide ((row (fun _ => "") none none r).sport = .text "eq www".toList) &&
        decide ((row (fun _ => "") none none r).last = .text "ftp-data-ftp".toList) && decide ((row (fun _ => "") none none r).dst = .text "10.0.0.0/8".toList)) (by decide +kernel)
    simp only [Bool.and_eq_true, decide_eq_true_eq] at h3
    obtain ⟨⟨⟨⟨⟨h3, h4⟩, h5⟩, h6⟩, h7⟩, h8⟩ := h3
    exact ⟨items, u, r, h1, h2, ⟨fun e => by rw [h3] at e; simp at e, fun _ => h4, h5⟩, h6, h7, h8⟩
  · obtain ⟨items, u, r, h1, h2, h3⟩ := firstRule_some (t := "access-list a extended deny icmp any any echo inactive\n")
      (f := fun r => decide (r.protocol = .name "icmp") && decide (r.icmp = some (.icmp "echo" none)) && decide (r.url = none) && decide (r.dst.port = none) &&
        decide ((row (fun _ => "") none none r).last = .text "echo".toList) && decide ((row (fun _ => "") none none r).options = [.text "inactive".toList])) (by decide +kernel)
    simp only [Bool.and_eq_true, decide_eq_true_eq] at h3
    obtain ⟨⟨⟨⟨⟨h3, h4⟩, h5⟩, h6⟩, h7⟩, h8⟩ := h3
    refine ⟨items, u, r, h1, h2, ⟨fun _ => ⟨h6, fun ty c e => ?_⟩, fun e => absurd h3 e, h5⟩, h7, h8⟩
    rw [h4] at e
    cases e
    rfl

end Acltk.Cells
