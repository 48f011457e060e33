import Verif.Spec.CellsSpec
import Verif.Lemmas.CafInv
import Verif.Lemmas.Summarize
import Verif.Props.AcceptedHosts
import Verif.Props.PfHosts
/-!
# C115: what a cell of a page says
-/
namespace Acltk.Cells
open Acltk

theorem addr_no {s : List Char} {a : Addr} (h : ipAddress s = .ok a) : '/' ∉ s ∧ ' ' ∉ s ∧ 'n' ∉ s := by
  have hc := (CafText.address_chars (CafText.address_inv h)).1
  refine ⟨fun hm => ?_, fun hm => ?_, fun hm => ?_⟩ <;> exact absurd (hc _ hm) (by decide)

/-- The kind of a cell. -/
def kind : Cell → Nat
  | .text s => if '/' ∈ s then (if ' ' ∈ s then 2 else 1) else if s = ['a', 'n', 'y'] then 3 else if s = ['a', 'n', 'y', '4'] then 4 else if s = ['a', 'n', 'y', '6'] then 5 else 0
  | .link h s =>
    match h.toList with
    | 'n' :: 'a' :: _ => if '/' ∈ s then 1 else 0
    | 'n' :: 'e' :: 't' :: 'w' :: 'o' :: 'r' :: 'k' :: '_' :: 'g' :: _ => 6
    | 'n' :: 'e' :: _ => 7
    | _ => 8

def kindOf : Shown → Nat
  | .address _ => 0
  | .network _ => 1
  | .wildcard _ _ => 2
  | .any => 3
  | .any4 => 4
  | .any6 => 5
  | .group _ => 6
  | .object _ => 7
  | .interface _ => 8

theorem kind_reads {c : Cell} {x : Shown} (h : Reads c x) : kind c = kindOf x := by
  cases h with
  | address hw ha =>
    obtain ⟨h1, h2, h3⟩ := addr_no ha
    cases hw with
    | plain =>
      simp only [kind, h1, ↓reduceIte, kindOf]
      rw [if_neg (by rintro rfl; exact h3 (by decide)), if_neg (by rintro rfl; exact h3 (by decide)), if_neg (by rintro rfl; exact h3 (by decide))]
    | name t => simp [kind, kindOf, String.toList_append, h1]
  | network hw h1 h2 hn =>
    cases hw with
    | plain => simp [kind, h1, h2, kindOf]
    | name t => simp [kind, kindOf, String.toList_append, h1]
  | wildcard => simp [kind, kindOf]
  | any => decide
  | any4 => decide
  | any6 => decide
  | group n => simp [kind, kindOf, String.toList_append]
  | object n => simp [kind, kindOf, String.toList_append]
  | interface n => simp [kind, kindOf, String.toList_append]

theorem written_inv {c : Cell} {s : List Char} (h : Written c s) : c = .text s ∨ ∃ t, c = .link ("name_alias_" ++ t) s := by
  cases h with
  | plain => exact .inl rfl
  | name t => exact .inr ⟨t, rfl⟩

theorem written_unique {c : Cell} {s s' : List Char} (h : Written c s) (h' : Written c s') : s = s' := by
  rcases written_inv h with rfl | ⟨t, rfl⟩ <;> rcases written_inv h' with h' | ⟨t', h'⟩
  · exact Cell.text.inj h'
  · cases h'
  · cases h'
  · exact (Cell.link.inj h').2

theorem split_slash {s t s' t' : List Char} (h1 : '/' ∉ s) (h2 : '/' ∉ s') (h : s ++ '/' :: t = s' ++ '/' :: t') : s = s' ∧ t = t' := by
  induction s generalizing s' with
  | nil =>
    cases s' with
    | nil => simpa using h
    | cons c s' => simp at h; exact absurd (by simp [← h.1]) h2
  | cons c s ih =>
    cases s' with
    | nil => simp at h; exact absurd (by simp [h.1]) h1
    | cons c' s' =>
      simp only [List.cons_append, List.cons.injEq] at h
      obtain ⟨rfl, rfl⟩ := ih (s' := s') (fun hm => h1 (List.mem_cons_of_mem _ hm)) (fun hm => h2 (List.mem_cons_of_mem _ hm)) h.2
      exact ⟨by rw [h.1], rfl⟩

/-- The same as `Reads`, with equations. -/
def Inv (c : Cell) : Shown → Prop
    | .address a => ∃ s, Written c s ∧ ipAddress s = .ok a
    | .network n => ∃ s, Written c s ∧ ipNetwork s = .ok n
    | .wildcard a w => ∃ s t, '/' ∉ s ∧ ipAddress s = .ok a ∧ ipAddress t = .ok w ∧ c = .text ("VERIFY ".toList ++ s ++ '/' :: t)
    | .group n => ∃ h, c = .link h n.toList
    | .object n => ∃ h, c = .link h n.toList
    | .interface n => ∃ h, c = .link h n.toList
    | _ => True

theorem reads_inv {c : Cell} {x : Shown} (h : Reads c x) : Inv c x := by
  cases h with
  | address h1 h2 => exact ⟨_, h1, h2⟩
  | network h1 _ _ h2 => exact ⟨_, h1, h2⟩
  | wildcard h1 h2 h3 h4 => exact ⟨_, _, h1, h3, h4, rfl⟩
  | group n => exact ⟨_, rfl⟩
  | object n => exact ⟨_, rfl⟩
  | interface n => exact ⟨_, rfl⟩
  | _ => trivial

/-- A cell is read in one way. -/
theorem reads_unique {c : Cell} {x y : Shown} (hx : Reads c x) (hy : Reads c y) : x = y := by
  have hk : kindOf x = kindOf y := (kind_reads hx).symm.trans (kind_reads hy)
  have ix := reads_inv hx
  have iy := reads_inv hy
  cases x with
  | address a =>
    cases y <;> first | (exfalso; simp [kindOf] at hk; done) | skip
    obtain ⟨s, h1, h2⟩ := ix
    obtain ⟨s', h1', h2'⟩ := iy
    rw [written_unique h1 h1', h2'] at h2
    cases h2
    rfl
  | network n =>
    cases y <;> first | (exfalso; simp [kindOf] at hk; done) | skip
    obtain ⟨s, h1, h2⟩ := ix
    obtain ⟨s', h1', h2'⟩ := iy
    rw [written_unique h1 h1', h2'] at h2
    cases h2
    rfl
  | wildcard a w =>
    cases y <;> first | (exfalso; simp [kindOf] at hk; done) | skip
    obtain ⟨s, t, h1, h2, h3, rfl⟩ := ix
    obtain ⟨s', t', h1', h2', h3', e⟩ := iy
    simp only [Cell.text.injEq, List.append_assoc, List.append_cancel_left_eq] at e
    obtain ⟨rfl, rfl⟩ := split_slash h1 h1' e
    rw [h2] at h2'
    rw [h3] at h3'
    cases h2'
    cases h3'
    rfl
  | group n =>
    cases y <;> first | (exfalso; simp [kindOf] at hk; done) | skip
    obtain ⟨h, rfl⟩ := ix
    obtain ⟨h', e⟩ := iy
    rw [String.toList_inj.1 (Cell.link.inj e).2]
  | object n =>
    cases y <;> first | (exfalso; simp [kindOf] at hk; done) | skip
    obtain ⟨h, rfl⟩ := ix
    obtain ⟨h', e⟩ := iy
    rw [String.toList_inj.1 (Cell.link.inj e).2]
  | interface n =>
    cases y <;> first | (exfalso; simp [kindOf] at hk; done) | skip
    obtain ⟨h, rfl⟩ := ix
    obtain ⟨h', e⟩ := iy
    rw [String.toList_inj.1 (Cell.link.inj e).2]
  | any => cases y <;> first | (exfalso; simp [kindOf] at hk; done) | rfl
  | any4 => cases y <;> first | (exfalso; simp [kindOf] at hk; done) | rfl
  | any6 => cases y <;> first | (exfalso; simp [kindOf] at hk; done) | rfl

theorem named_written (target : Option String) (s : List Char) : Written (named target s) s := by
  cases target with
  | none => exact .plain s
  | some t => exact .name t s

theorem shown (target : Option String) {wild : Bool} {h : Host} (hc : Configured wild h) : ∃ x, Is h x ∧ Reads (hostCell target h) x := by
  cases hc with
  | host a hv => exact ⟨_, .address a, .address (named_written target _) (ipAddress_text hv)⟩
  | net n hv =>
    refine ⟨_, .network n, .network (named_written target _) (by simp [netText]) ?_ (mkNetwork_self hv)⟩
    have hv' : n.networkAddress.Valid := hv.2.1
    have h1 := (addr_no (ipAddress_text hv')).2.1
    have h2 : ' ' ∉ decText n.plen := dot_not_mem_decText _ (by decide)
    simp [netText, h1, h2]
  | wild a w _ h1 h2 =>
    have ha : (Addr.mk .v4 a).Valid := h1
    have hw : (Addr.mk .v4 w).Valid := h2
    exact ⟨_, .wildcard a w, .wildcard (addr_no (ipAddress_text ha)).1 (addr_no (ipAddress_text hw)).1 (ipAddress_text ha) (ipAddress_text hw)⟩
  | any => exact ⟨_, .any, .any⟩
  | any4 => exact ⟨_, .any4, .any4⟩
  | any6 => exact ⟨_, .any6, .any6⟩
  | iface n => exact ⟨_, .interface n, .interface n⟩
  | obj n l => exact ⟨_, .object n l, .object n⟩
  | group n l => exact ⟨_, .group n l, .group n⟩

theorem is_unique {h : Host} {x y : Shown} (hx : Is h x) (hy : Is h y) : x = y := by
  cases hx <;> cases hy <;> rfl

/-- **C115, hosts.** The cell of a host is read as that host, and as nothing else, whether it was written as a name or not. -/
theorem C115_host (target : Option String) {wild : Bool} (h : Host) (hc : Configured wild h) (x : Shown) : Reads (hostCell target h) x ↔ Is h x := by
  obtain ⟨y, h1, h2⟩ := shown target hc
  constructor
  · intro hx
    rw [reads_unique hx h2]
    exact h1
  · intro hx
    rw [is_unique hx h1]
    exact h2

/-- Equal cells are cells of equal addresses, networks and wildcards, and of groups, objects and interfaces of the same name. -/
theorem C115_host_injective (t t' : Option String) {wild : Bool} (h h' : Host) (hc : Configured wild h) (hc' : Configured wild h') (he : hostCell t h = hostCell t' h') (x : Shown) : Is h x ↔ Is h' x := by
  rw [← C115_host t h hc, ← C115_host t' h' hc', he]

theorem inCell_configured {wild : Bool} {h x : Host} (hc : Configured wild h) (hi : InCell h x) : Configured wild x := by
  cases hi with
  | self => exact hc
  | member n l _ hm => cases hc with | group _ _ h => exact h x hm
  | address n l _ hm => cases hc with | obj _ _ h _ => exact h x hm

/-- **C115, FWSM/ASA texts.** Whatever text is accepted, the cell of every host of its rules, groups, network objects and NAT entries is read as that host, and as nothing else. -/
theorem C115_fwsm (g : Lookup.Guard) (t r : List Char) (items : List FwsmText.Item) (h : FwsmText.parseFile g t = .ok items r) (i : FwsmText.Item) (hi : i ∈ items) (y z : Host)
    (hy : FwsmText.HostIn y i) (hz : InCell y z) (target : Option String) (x : Shown) : Reads (hostCell target z) x ↔ Is z x :=
  C115_host target z (inCell_configured (Accepted.C94_fwsm_hosts g t r items h i hi y hy) hz) x

/-- **C115, IOS texts.** The same of IOS texts, with wildcards. -/
theorem C115_ios (g : Lookup.Guard) (t r : List Char) (items : List IosText.Item) (h : IosText.parseFile g t = .ok items r) (i : IosText.Item) (hi : i ∈ items) (y z : Host)
    (hy : Accepted.IosHostIn y i) (hz : InCell y z) (target : Option String) (x : Shown) : Reads (hostCell target z) x ↔ Is z x :=
  C115_host target z (inCell_configured (Accepted.C94_ios_hosts g t r items h i hi y hy) hz) x

/-- **C115, pfSense configurations.** The same of the hosts of the rules, the aliases and the entries of the aliases. -/
theorem C115_pfsense {T : Type} (v : Pf.Env T) (root : Pf.Elem) (p : Pf.Parsed T) (h : Pf.parse v root = .ok p) (y z : Host) (hy : Pf.HostIn p y) (hz : InCell y z) (target : Option String) (x : Shown) :
    Reads (hostCell target z) x ↔ Is z x :=
  C115_host target z (inCell_configured (Pf.C94_pfsense_hosts v root p h y hy).1 hz) x

theorem split_at {d : Char} {s t s' t' : List Char} (h1 : d ∉ s) (h2 : d ∉ s') (h : s ++ d :: t = s' ++ d :: t') : s = s' ∧ t = t' := by
  induction s generalizing s' with
  | nil =>
    cases s' with
    | nil => simpa using h
    | cons c s' => simp at h; exact absurd (by simp [← h.1]) h2
  | cons c s ih =>
    cases s' with
    | nil => simp at h; exact absurd (by simp [h.1]) h1
    | cons c' s' =>
      simp only [List.cons_append, List.cons.injEq] at h
      obtain ⟨rfl, rfl⟩ := ih (s' := s') (fun hm => h1 (List.mem_cons_of_mem _ hm)) (fun hm => h2 (List.mem_cons_of_mem _ hm)) h.2
      exact ⟨by rw [h.1], rfl⟩

/-- A port of a rule: operator and number, or a range, of words. -/
def Words : Option PortLeaf → Prop
  | none => True
  | some (.port p) => ∃ op num, p = ⟨some op, some num⟩ ∧ ' ' ∉ op.toList
  | some (.range a b) => ' ' ∉ a.toList ∧ ' ' ∉ b.toList

/-- Neither end of a range has a hyphen in its name. -/
def NoHyphen : Option PortLeaf → Prop
  | some (.range a b) => '-' ∉ a.toList ∧ '-' ∉ b.toList
  | _ => True

/-- **C115, ports.** The cell of a port is read as that port, and as no other one without hyphens. -/
theorem C115_port_partial (p : Option PortLeaf) (hw : Words p) : ReadsPort (portCell p) p ∧
    ∀ q, NoHyphen p → NoHyphen q → ReadsPort (portCell p) q → q = p := by
  have hr : ReadsPort (portCell p) p := by
    match p with
    | none => exact .nothing
    | some (.port _) =>
      obtain ⟨op, num, rfl, h⟩ := hw
      exact .single op num h
    | some (.range a b) => exact .range a b hw.1 hw.2
  refine ⟨hr, fun q hp hq h => ?_⟩
  generalize hc : portCell p = c at hr h
  clear hc
  cases hr with
  | nothing =>
    generalize hs : Cell.text [] = c at h
    cases h with
    | nothing => rfl
    | single => simp at hs
    | range => simp at hs
  | single op num h1 =>
    generalize hs : Cell.text _ = c at h
    cases h with
    | nothing => simp at hs
    | single op' num' h2 =>
      simp only [Cell.text.injEq] at hs
      obtain ⟨e1, e2⟩ := split_at h1 h2 hs
      rw [String.toList_inj.1 e1, String.toList_inj.1 e2]
    | range a b h2 h3 =>
      simp only [Cell.text.injEq] at hs
      have : ' ' ∈ a.toList ++ '-' :: b.toList := by rw [← hs]; simp
      simp [h2, h3] at this
  | range a b h1 h1' =>
    generalize hs : Cell.text _ = c at h
    cases h with
    | nothing => simp at hs
    | single op' num' h2 =>
      simp only [Cell.text.injEq] at hs
      have : ' ' ∈ a.toList ++ '-' :: b.toList := by rw [hs]; simp
      simp [h1, h1'] at this
    | range a' b' h2 h3 =>
      simp only [Cell.text.injEq] at hs
      obtain ⟨e1, e2⟩ := split_at hp.1 hq.1 hs
      rw [String.toList_inj.1 e1, String.toList_inj.1 e2]

/-- **C115 is violated by ranges of services with a hyphen in their name:** two different ranges have the same cell. -/
theorem C115_violated_range : mkPortRange "a-b" "c" = .ok (.range "a-b" "c") ∧ mkPortRange "a" "b-c" = .ok (.range "a" "b-c") ∧
    portCell (some (.range "a-b" "c")) = portCell (some (.range "a" "b-c")) := by
  refine ⟨by decide +kernel, by decide +kernel, by decide +kernel⟩

/-- **C115 is violated by `port-object eq`**, which loses the number (C53): the cell says `None`. -/
theorem C115_violated_eq (n : String) : ∃ p, portGroupObject (portObjectEqAst n) = .ok p ∧ portCell (some p) = .text "eq None".toList :=
  ⟨.port ⟨some "eq", none⟩, rfl, by decide +kernel⟩

/-- The hypotheses are met. -/
theorem C115_sample : Configured false (.net ⟨.v4, 0x0A000000, 8⟩) ∧ hostCell (some "lan") (.net ⟨.v4, 0x0A000000, 8⟩) = .link "name_alias_lan" "10.0.0.0/8".toList ∧
    hostCell none (.wild 0x0A000000 0xFF00) = .text "VERIFY 10.0.0.0/0.0.255.0".toList ∧
    Words (some (.range "1024" "65535")) ∧ NoHyphen (some (.range "1024" "65535")) ∧ portCell (some (.range "1024" "65535")) = .text "1024-65535".toList := by
  refine ⟨?_, ?_, ?_, ?_, ?_, ?_⟩
  · exact .net _ (by decide +kernel)
  · decide +kernel
  · decide +kernel
  · exact ⟨by decide, by decide⟩
  · exact ⟨by decide, by decide⟩
  · decide +kernel

end Acltk.Cells
