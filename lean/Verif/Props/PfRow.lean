import Verif.Spec.PfRowSpec
import Verif.Props.Row
import Verif.Props.PfHosts
/-!
# C119: what the row of a pfSense rule says
-/
namespace Acltk.Cells
open Acltk Acltk.Pf

/-! ## ports of accepted rules -/

/-- `eq` and a port, or a range, without hyphens; or an alias. -/
def PfPortOk : Option PortRef → Prop
  | none => True
  | some (.leaf (.port p)) => ∃ s : String, p = ⟨some "eq", some s⟩ ∧ '-' ∉ s.toList
  | some (.leaf (.range a b)) => '-' ∉ a.toList ∧ '-' ∉ b.toList
  | some (.group _ _) => True

theorem splitMax2_two {s a b : List Char} (h : splitMax2 s = [a, b]) : '-' ∉ a ∧ '-' ∉ b := by
  have hs := splitOn_no_sep '-' s
  unfold splitMax2 at h
  split at h
  · cases h
  · rw [h] at hs
    exact ⟨hs a (by simp), hs b (by simp)⟩

theorem rangeOf_ok {l : List (List Char)} {r : PortLeaf} (h : rangeOf l = .ok r) : ∃ a b, l = [a, b] ∧ r = .range (String.ofList a) (String.ofList b) := by
  unfold rangeOf at h
  split at h
  · rename_i a b
    refine ⟨a, b, rfl, ?_⟩
    unfold mkPortRange at h
    repeat' split at h
    all_goals first
      | cases h; rfl
      | cases h
  · cases h

theorem portChild_ok {t : Tables} (ht : ∀ k g, dGet t.ports k = some g → PfPortOk (some g)) {x : Option String} {p : PortRef} (h : portChild t x = .ok p) : PfPortOk (some p) := by
  unfold portChild at h
  split at h
  · rename_i g hg
    cases h
    exact ht _ _ hg
  · split at h
    · cases h
    · rename_i s
      split at h
      · split at h
        · cases h
        · rename_i r hr
          cases h
          obtain ⟨a, b, h1, rfl⟩ := rangeOf_ok hr
          have := splitMax2_two h1
          simp only [PfPortOk, String.toList_ofList]
          exact this
      · rename_i hn
        cases h
        exact ⟨_, rfl, hn⟩

theorem nodeLoop_port {t : Tables} (ht : ∀ k g, dGet t.ports k = some g → PfPortOk (some g)) {l : List Elem} : ∀ {a p a' p'},
    nodeLoop t a p l = .ok (a', p') → PfPortOk p → PfPortOk p' := by
  induction l with
  | nil => intro a p a' p' e hp; cases e; exact hp
  | cons n l ih =>
    intro a p a' p' e hp
    unfold nodeLoop at e
    split at e
    · exact ih e hp
    · split at e
      · rw [bind_ok] at e
        obtain ⟨x, -, e⟩ := e
        exact ih e hp
      · split at e
        · rw [bind_ok] at e
          obtain ⟨x, e1, e⟩ := e
          exact ih e (portChild_ok ht e1)
        · split at e
          · rw [bind_ok] at e
            obtain ⟨x, -, e⟩ := e
            exact ih e hp
          · cases e

theorem parseNode_port {t : Tables} (ht : ∀ k g, dGet t.ports k = some g → PfPortOk (some g)) {e : Elem} {n : PNode} (h : parseNode t e = .ok n) : PfPortOk n.port := by
  unfold parseNode at h
  rw [bind_ok] at h
  obtain ⟨⟨a, p⟩, h1, h2⟩ := h
  have := nodeLoop_port ht h1 trivial
  cases a with
  | none => cases h2
  | some x => cases h2; exact this

variable {T : Type}

theorem ruleStep_port {v : Env T} {t : Tables} (ht : ∀ k g, dGet t.ports k = some g → PfPortOk (some g)) {s s' : Vals T} {c : Elem}
    (h : ruleStep v t s c = .ok s') (hs : PfPortOk s.source.port ∧ PfPortOk s.destination.port) : PfPortOk s'.source.port ∧ PfPortOk s'.destination.port := by
  unfold ruleStep at h
  have stop : ∀ {r : Vals T}, Except.ok r = (Except.ok s' : Py (Vals T)) → r.source = s.source → r.destination = s.destination →
      PfPortOk s'.source.port ∧ PfPortOk s'.destination.port := by
    intro r e e1 e2; cases e; rw [e1, e2]; exact hs
  iterate 11
    rcases ite_inv h with h | h
    · exact stop h rfl rfl
  rcases ite_inv h with h | h
  · rw [bind_ok] at h; obtain ⟨x, h1, h⟩ := h; cases h; exact ⟨parseNode_port ht h1, hs.2⟩
  rcases ite_inv h with h | h
  · rw [bind_ok] at h; obtain ⟨x, h1, h⟩ := h; cases h; exact ⟨hs.1, parseNode_port ht h1⟩
  rcases ite_inv h with h | h
  · rw [bind_ok] at h; obtain ⟨x, h1, h⟩ := h; exact stop h rfl rfl
  rcases ite_inv h with h | h
  · rw [bind_ok] at h; obtain ⟨x, h1, h⟩ := h; exact stop h rfl rfl
  rcases ite_inv h with h | h
  · exact stop h rfl rfl
  rcases ite_inv h with h | h
  · exact stop h rfl rfl
  · cases h

theorem ruleLoop_port {v : Env T} {t : Tables} (ht : ∀ k g, dGet t.ports k = some g → PfPortOk (some g)) {l : List Elem} : ∀ {s s' : Vals T},
    ruleLoop v t s l = .ok s' → (PfPortOk s.source.port ∧ PfPortOk s.destination.port) → PfPortOk s'.source.port ∧ PfPortOk s'.destination.port := by
  induction l with
  | nil => intro s s' h hs; cases h; exact hs
  | cons c l ih =>
    intro s s' h hs
    rw [ruleLoop, bind_ok] at h
    obtain ⟨x, h1, h⟩ := h
    exact ih h (ruleStep_port ht h1 hs)

/-- The options a rule can have. -/
structure PfOptionsOk (d : Dict String OptVal) : Prop where
  floating : ∀ o, dGet d "floating" = some o → ∃ l x, o = .floating l x
  inactive : ∀ o, dGet d "inactive" = some o → o = .inactive
  log : ∀ o, dGet d "log" = some o → o = .log
  statetype : ∀ o, dGet d "statetype" = some o → ∃ s, o = .statetype s
  xref : ∃ t, dGet d "xref" = some (.xref t)

theorem rules_ok {v : Env T} {root : Elem} {p : Parsed T} (h : parse v root = .ok p) : ∀ r ∈ p.rules, PfPortOk r.src.port ∧ PfPortOk r.dst.port ∧ PfOptionsOk r.options := by
  obtain ⟨-, -, -, ⟨t, ht, h2⟩, -⟩ := C61_configuration v root p h
  have hn : ∀ k g, dGet t.ports k = some g → PfPortOk (some g) := by
    intro k g hg
    rw [ht.ports] at hg
    obtain ⟨l, hl, rfl⟩ := Option.map_eq_some_iff.1 hg
    trivial
  intro r hr
  obtain ⟨e, -, r0, he, e'⟩ := h2.mem_right _ hr
  unfold parseRule at he
  rw [bind_ok] at he
  obtain ⟨s, i1, i2⟩ := he
  have F := finishRule_ok i2
  have := ruleLoop_port hn i1 ⟨trivial, trivial⟩
  rw [e']
  simp only
  rw [F.src, F.dst]
  refine ⟨this.1, this.2, ?_, ?_, ?_, ?_, ⟨_, F.xref⟩⟩
  · intro o ho
    have := F.floating
    split at this
    · obtain ⟨-, i, d, -, -, h3⟩ := this
      rw [h3] at ho
      cases ho
      exact ⟨_, _, rfl⟩
    · rw [this.1] at ho
      cases ho
  · intro o ho
    rw [F.inactive] at ho
    split at ho <;> cases ho
    rfl
  · intro o ho
    rw [F.log] at ho
    split at ho <;> cases ho
    rfl
  · intro o ho
    rw [F.statetype] at ho
    split at ho <;> cases ho
    exact ⟨_, rfl⟩

/-! ## columns -/

theorem pfPort_inv {c : Cell} {x : PortShown} (h : ReadsPfPort c x) : match x with
    | .nothing => c = .text []
    | .single op num => op = "eq" ∧ '-' ∉ num.toList ∧ c = .text ("eq ".toList ++ num.toList)
    | .range a b => '-' ∉ a.toList ∧ '-' ∉ b.toList ∧ c = .text (a.toList ++ '-' :: b.toList)
    | .group n => c = .link ("port_group_" ++ n) n.toList := by
  cases h with
  | nothing => rfl
  | single num h => exact ⟨rfl, h, rfl⟩
  | range a b h1 h2 => exact ⟨h1, h2, rfl⟩
  | group n => rfl

theorem eq_no_hyphen {s t : List Char} (h : '-' ∉ s) : "eq ".toList ++ s ≠ t ++ '-' :: u := by
  intro e
  have : '-' ∈ "eq ".toList ++ s := e ▸ by simp
  rcases List.mem_append.1 this with h' | h'
  · exact absurd h' (by decide)
  · exact h h'

theorem pfPort_unique {c : Cell} {x y : PortShown} (hx : ReadsPfPort c x) (hy : ReadsPfPort c y) : x = y := by
  have ix := pfPort_inv hx
  have iy := pfPort_inv hy
  cases x <;> cases y <;> simp only at ix iy
  case nothing.nothing => rfl
  case nothing.single => rw [ix] at iy; exact absurd iy.2.2 (by simp)
  case nothing.range => rw [ix] at iy; exact absurd iy.2.2 (by simp)
  case nothing.group => rw [ix] at iy; cases iy
  case single.nothing => rw [iy] at ix; exact absurd ix.2.2 (by simp)
  case single.single =>
    obtain ⟨rfl, -, rfl⟩ := ix
    obtain ⟨rfl, -, h⟩ := iy
    simp only [Cell.text.injEq, List.append_cancel_left_eq] at h
    rw [String.toList_inj.1 h]
  case single.range =>
    obtain ⟨rfl, h1, rfl⟩ := ix
    simp only [Cell.text.injEq] at iy
    exact absurd iy.2.2 (eq_no_hyphen h1)
  case single.group => rw [iy] at ix; cases ix.2.2
  case range.nothing => rw [iy] at ix; exact absurd ix.2.2 (by simp)
  case range.single =>
    obtain ⟨rfl, h1, rfl⟩ := iy
    simp only [Cell.text.injEq] at ix
    exact absurd ix.2.2 (eq_no_hyphen h1)
  case range.range =>
    obtain ⟨h1, h2, rfl⟩ := ix
    obtain ⟨h3, h4, h⟩ := iy
    simp only [Cell.text.injEq] at h
    obtain ⟨e1, e2⟩ := split_at h1 h3 h
    rw [String.toList_inj.1 e1, String.toList_inj.1 e2]
  case range.group => rw [iy] at ix; cases ix.2.2
  case group.nothing => rw [ix] at iy; cases iy
  case group.single => rw [ix] at iy; cases iy.2.2
  case group.range => rw [ix] at iy; cases iy.2.2
  case group.group =>
    rw [ix] at iy
    simp only [Cell.link.injEq] at iy
    rw [String.toList_inj.1 iy.2]

theorem pfPort_iff {p : Option PortRef} (hp : PfPortOk p) (x : PortShown) : ReadsPfPort (pfPortCell p) x ↔ PfPortIs p x := by
  have h : ∃ y, PfPortIs p y ∧ ReadsPfPort (pfPortCell p) y := by
    match p, hp with
    | none, _ => exact ⟨_, .nothing, .nothing⟩
    | some (.leaf (.port q)), hp =>
      obtain ⟨s, rfl, hs⟩ := hp
      have : pfPortCell (some (.leaf (.port ⟨some "eq", some s⟩))) = .text ("eq ".toList ++ s.toList) := by simp [pfPortCell, portCell, printed]
      exact ⟨_, .single _ _, this ▸ .single s hs⟩
    | some (.leaf (.range a b)), hp => exact ⟨_, .range a b, .range a b hp.1 hp.2⟩
    | some (.group (some n) l), _ => exact ⟨_, .group n l, .group n⟩
    | some (.group none l), _ => exact ⟨_, .unnamed l, .group "None"⟩
  obtain ⟨y, h1, h2⟩ := h
  constructor
  · intro h; rw [pfPort_unique h h2]; exact h1
  · intro h
    have : x = y := by cases h <;> cases h1 <;> rfl
    rw [this]; exact h2

theorem pfIcmp_iff {i : Option (Option String)} (hi : i ≠ some (some "")) (x : IcmpShown) : ReadsIcmp (pfIcmpCell i) x ↔ PfIcmpIs i x := by
  have h : ∃ y, PfIcmpIs i y ∧ ReadsIcmp (pfIcmpCell i) y := by
    match i, hi with
    | none, _ => exact ⟨_, .nothing, .nothing⟩
    | some none, _ => exact ⟨_, .empty, .type "None" (by decide)⟩
    | some (some s), hi => exact ⟨_, .type s, .type s (fun e => hi (by rw [e]))⟩
  obtain ⟨y, h1, h2⟩ := h
  constructor
  · intro h; rw [icmp_unique h h2]; exact h1
  · intro h
    have : x = y := by cases h <;> cases h1 <;> rfl
    rw [this]; exact h2

theorem pfPortIs_none {x : PortShown} (h : PfPortIs none x) : x = .nothing := by cases h; rfl

theorem pfIcmpIs_none {x : IcmpShown} (h : PfIcmpIs none x) : x = .nothing := by cases h; rfl

/-! ## options -/

theorem floating_mark (l : List String) (x : Option String) : ∃ s, pfOptionCell (.floating l x) = .text s ∧ ('>' ∈ s ∨ '?' ∈ s) := by
  simp only [pfOptionCell]
  repeat' split
  all_goals exact ⟨_, rfl, by simp⟩

/-- Where a text without these marks comes from. -/
theorem pfOption_mem {d : Dict String OptVal} (c : Cell) : c ∈ pfOptionCells d ↔
    ∃ k ∈ ["floating", "inactive", "log", "statetype", "xref"], ∃ o, dGet d k = some o ∧ c = pfOptionCell o := by
  unfold pfOptionCells
  rw [List.mem_flatMap]
  constructor
  · rintro ⟨k, hk, h⟩
    refine ⟨k, hk, ?_⟩
    split at h
    · rename_i o ho
      exact ⟨o, ho, by simpa using h⟩
    · cases h
  · rintro ⟨k, hk, o, ho, rfl⟩
    exact ⟨k, hk, by simp [ho]⟩

theorem xref_ne {s : String} (hs : s = "inactive" ∨ s = "log") (t : Option (Option String)) : Cell.text s.toList ≠ pfOptionCell (.xref t) := by
  rcases hs with rfl | rfl <;> rcases t with _ | t <;> simp [pfOptionCell]

theorem statetype_ne {s : String} (hs : s = "inactive" ∨ s = "log") (t : Option String) : Cell.text s.toList ≠ pfOptionCell (.statetype t) := by
  rcases hs with rfl | rfl <;> simp [pfOptionCell]

theorem floating_ne {s : String} (hs : s = "inactive" ∨ s = "log") (l : List String) (x : Option String) : Cell.text s.toList ≠ pfOptionCell (.floating l x) := by
  obtain ⟨u, hu, h⟩ := floating_mark l x
  rw [hu]
  intro e
  simp only [Cell.text.injEq] at e
  rw [← e] at h
  rcases hs with rfl | rfl <;> exact absurd h (by decide)

theorem pfInactive_iff {d : Dict String OptVal} (h : PfOptionsOk d) : Cell.text "inactive".toList ∈ pfOptionCells d ↔ dGet d "inactive" = some .inactive := by
  rw [pfOption_mem]
  constructor
  · rintro ⟨k, hk, o, ho, e⟩
    simp only [List.mem_cons, List.not_mem_nil, or_false] at hk
    rcases hk with rfl | rfl | rfl | rfl | rfl
    · obtain ⟨l, x, rfl⟩ := h.floating _ ho
      exact absurd e (floating_ne (.inl rfl) l x)
    · rw [ho, h.inactive _ ho]
    · rw [h.log _ ho] at e
      simp [pfOptionCell] at e
    · obtain ⟨s, rfl⟩ := h.statetype _ ho
      exact absurd e (statetype_ne (.inl rfl) s)
    · obtain ⟨t, ht⟩ := h.xref
      rw [ht, Option.some.injEq] at ho
      rw [← ho] at e
      exact absurd e (xref_ne (.inl rfl) t)
  · intro e
    exact ⟨_, by simp, _, e, rfl⟩

theorem pfLog_iff {d : Dict String OptVal} (h : PfOptionsOk d) : Cell.text "log".toList ∈ pfOptionCells d ↔ dGet d "log" = some .log := by
  rw [pfOption_mem]
  constructor
  · rintro ⟨k, hk, o, ho, e⟩
    simp only [List.mem_cons, List.not_mem_nil, or_false] at hk
    rcases hk with rfl | rfl | rfl | rfl | rfl
    · obtain ⟨l, x, rfl⟩ := h.floating _ ho
      exact absurd e (floating_ne (.inr rfl) l x)
    · rw [h.inactive _ ho] at e
      simp [pfOptionCell] at e
    · rw [ho, h.log _ ho]
    · obtain ⟨s, rfl⟩ := h.statetype _ ho
      exact absurd e (statetype_ne (.inr rfl) s)
    · obtain ⟨t, ht⟩ := h.xref
      rw [ht, Option.some.injEq] at ho
      rw [← ho] at e
      exact absurd e (xref_ne (.inr rfl) t)
  · intro e
    exact ⟨_, by simp, _, e, rfl⟩

theorem pfLast {d : Dict String OptVal} {o : OptVal} (h : dGet d "xref" = some o) : (pfOptionCells d).getLast? = some (pfOptionCell o) := by
  have : pfOptionCells d = ["floating", "inactive", "log", "statetype"].flatMap (fun k => match dGet d k with
    | some o => [pfOptionCell o]
    | none => []) ++ [pfOptionCell o] := by
    unfold pfOptionCells
    change (["floating", "inactive", "log", "statetype"] ++ ["xref"]).flatMap _ = _
    rw [List.flatMap_append]
    congr 1
    simp [h]
  rw [this, List.getLast?_append]
  simp

theorem pfTracker_iff {d : Dict String OptVal} (h : PfOptionsOk d) (s : String) :
    (pfOptionCells d).getLast? = some (.text ("xref:".toList ++ s.toList)) ↔ TrackerIs (dGet d "xref") s := by
  obtain ⟨t, ht⟩ := h.xref
  rw [pfLast ht, ht, Option.some.injEq]
  have key : ∃ u, TrackerIs (some (.xref t)) u ∧ pfOptionCell (.xref t) = .text ("xref:".toList ++ u.toList) := by
    rcases t with _ | _ | t
    · exact ⟨_, .missing, by decide⟩
    · exact ⟨_, .empty, by decide⟩
    · exact ⟨_, .tracker t, rfl⟩
  obtain ⟨u, h1, h2⟩ := key
  rw [h2]
  constructor
  · intro e
    simp only [Cell.text.injEq, List.append_cancel_left_eq] at e
    rw [← String.toList_inj.1 e]
    exact h1
  · intro e
    have : s = u := by cases e <;> cases h1 <;> rfl
    rw [this]

/-! ## rows -/

theorem protocol_icmp {p : Option String} : p.getD "None" = "icmp" ↔ p = some "icmp" := by
  cases p <;> simp

/-- **C119, rows.** The row of a rule that the columns leave nothing out of is read as that rule, and as nothing else. -/
theorem C119_row_partial (r : PfRule T) (h1 : PfPortOk r.src.port) (h2 : PfPortOk r.dst.port) (h3 : PfOptionsOk r.options) {wild : Bool} (c1 : Configured wild r.src.host)
    (c2 : Configured wild r.dst.host) (hn : PfNothingLost r) (x : PfShown) : PfReads (pfRow r) x ↔ PfIs r x := by
  constructor
  · intro h
    have hp : r.protocol.getD "None" = x.protocol := by
      have := h.protocol
      simp only [pfRow, Cell.text.injEq, printed] at this
      exact String.toList_inj.1 this
    have hlast : PfPortIs r.dst.port x.dport ∧ PfIcmpIs r.icmp x.icmp := by
      by_cases hi : r.protocol = some "icmp"
      · have hx : x.protocol = "icmp" := by rw [← hp, hi]; rfl
        obtain ⟨e, hr⟩ := h.icmp hx
        simp only [pfRow, hi, if_true] at hr
        rw [hn.icmp hi, e]
        exact ⟨.nothing, (pfIcmp_iff hn.text _).1 hr⟩
      · have hx : x.protocol ≠ "icmp" := fun e => hi (protocol_icmp.1 (hp.trans e))
        obtain ⟨e, hr⟩ := h.port hx
        simp only [pfRow, hi, if_false] at hr
        rw [hn.other hi, e]
        exact ⟨(pfPort_iff h2 _).1 hr, .nothing⟩
    exact ⟨String.toList_inj.1 h.mode, hp, (C115_host none _ c1 _).1 h.src, (pfPort_iff h1 _).1 h.sport, (C115_host none _ c2 _).1 h.dst, hlast.1, hlast.2,
      h.inactive.trans (pfInactive_iff h3), h.log.trans (pfLog_iff h3), (pfTracker_iff h3 _).1 h.tracker⟩
  · intro h
    refine ⟨congrArg String.toList h.mode, ?_, (C115_host none _ c1 _).2 h.src, (pfPort_iff h1 _).2 h.sport, (C115_host none _ c2 _).2 h.dst, ?_, ?_,
      h.inactive.trans (pfInactive_iff h3).symm, h.log.trans (pfLog_iff h3).symm, (pfTracker_iff h3 _).2 h.tracker⟩
    · simp only [pfRow, printed, h.protocol]
    · intro hx
      have hi : r.protocol = some "icmp" := protocol_icmp.1 (h.protocol.trans hx)
      have hd := h.dport
      rw [hn.icmp hi] at hd
      simp only [pfRow, hi, if_true]
      exact ⟨pfPortIs_none hd, (pfIcmp_iff hn.text _).2 h.icmp⟩
    · intro hx
      have hi : r.protocol ≠ some "icmp" := fun e => hx (by rw [← h.protocol, e]; rfl)
      have hd := h.icmp
      rw [hn.other hi] at hd
      simp only [pfRow, hi, if_false]
      exact ⟨pfIcmpIs_none hd, (pfPort_iff h2 _).2 h.dport⟩

/-- **C119, configurations.** Whatever configuration is accepted, the row of every rule the columns leave nothing out of is read as that rule and as nothing else. -/
theorem C119_pfsense_partial (v : Env T) (root : Elem) (p : Parsed T) (h : parse v root = .ok p) (r : PfRule T) (hr : r ∈ p.rules) (hn : PfNothingLost r) (x : PfShown) :
    PfReads (pfRow r) x ↔ PfIs r x :=
  have ho := rules_ok h r hr
  C119_row_partial r ho.1 ho.2.1 ho.2.2 (C94_pfsense_hosts v root p h _ (.src r hr)).1 (C94_pfsense_hosts v root p h _ (.dst r hr)).1 hn x

/-- Equal rows are rows of rules with the same mode, protocol, hosts, ports, icmp type, activity, logging and tracker, up to aliases of the same name. -/
theorem C119_equal_rows_partial (v v' : Env T) (root root' : Elem) (p p' : Parsed T) (h : parse v root = .ok p) (h' : parse v' root' = .ok p') (r r' : PfRule T)
    (hr : r ∈ p.rules) (hr' : r' ∈ p'.rules) (hn : PfNothingLost r) (hn' : PfNothingLost r') (he : pfRow r = pfRow r') (x : PfShown) : PfIs r x ↔ PfIs r' x := by
  rw [← C119_pfsense_partial v root p h r hr hn, ← C119_pfsense_partial v' root' p' h' r' hr' hn', he]

/-- **C119 is violated by the ports of rules of the protocol icmp.** -/
theorem C119_violated_port (r : PfRule T) (h : r.protocol = some "icmp") (p q : Option PortRef) :
    pfRow { r with dst := { r.dst with port := p } } = pfRow { r with dst := { r.dst with port := q } } := by
  simp [pfRow, h]

/-- **C119 is violated by the icmp types of rules of other protocols.** -/
theorem C119_violated_icmp (r : PfRule T) (h : r.protocol ≠ some "icmp") (i j : Option (Option String)) : pfRow { r with icmp := i } = pfRow { r with icmp := j } := by
  simp [pfRow, h]

/-! ## the hypotheses are met -/

/-- A rule of tcp with ports that is logged, and an inactive rule of icmp. -/
def rowConfig : Elem := .mk "pfsense" none
  [.mk "filter" none
    [.mk "rule" none [leaf "type" (some "pass"), leaf "interface" (some "wan"), leaf "protocol" (some "tcp"), leaf "descr" none, leaf "log" none, leaf "tracker" (some "7"),
      .mk "source" none [leaf "address" (some "10.0.0.0/8"), leaf "port" (some "1024-65535")], .mk "destination" none [leaf "any" none, leaf "port" (some "443")]],
     .mk "rule" none [leaf "type" (some "block"), leaf "interface" (some "wan"), leaf "protocol" (some "icmp"), leaf "icmptype" (some "echoreq"), leaf "descr" none, leaf "disabled" none]]]

/-- The rows of the rules of an accepted configuration, if the columns leave nothing out of them. -/
def rowsOf (e : Elem) : Option (List RowCells) :=
  match parse sampleEnv e with
  | .ok p => if p.rules.all (fun r => decide (r.protocol = some "icmp" → r.dst.port.isNone = true) && decide (r.protocol ≠ some "icmp" → r.icmp = none) && decide (r.icmp ≠ some (some "")))
      then some (p.rules.map pfRow) else none
  | .error _ => none

theorem C119_sample : rowsOf rowConfig = some
    [⟨"permit".toList, .text "tcp".toList, .text "10.0.0.0/8".toList, .text "1024-65535".toList, .text "any".toList, .text "eq 443".toList, [.text "log".toList, .text "xref:7".toList]⟩,
     ⟨"deny".toList, .text "icmp".toList, .text "any".toList, .text [], .text "any".toList, .text "echoreq".toList, [.text "inactive".toList, .text "xref:-1".toList]⟩] := by
  decide +kernel

end Acltk.Cells
