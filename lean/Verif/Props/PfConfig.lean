import Verif.Props.PfIface
import Verif.Spec.HostSpec
/-!
# C60, C61: pfSense aliases and whole configurations
-/
namespace Acltk.Pf
open Acltk Acltk.Ifc

/-! ## C60: aliases -/

theorem mapPy_ok {α β : Type} {f : α → Py β} {l : List α} : ∀ {m : List β},
    mapPy f l = .ok m ↔ All2 (fun x y => f x = .ok y) l m := by
  induction l with
  | nil =>
    intro m
    constructor
    · intro h; cases h; exact .nil
    · intro h; cases h; rfl
  | cons x xs ih =>
    intro m
    simp only [mapPy, bind_ok]
    constructor
    · rintro ⟨y, h1, ys, h2, h3⟩
      cases h3
      exact .cons h1 (ih.1 h2)
    · intro h
      cases h with
      | cons h1 h2 => exact ⟨_, h1, _, ih.2 h2, rfl⟩

theorem All2.mem_left {α β : Type} {R : α → β → Prop} {l : List α} {m : List β} (h : All2 R l m) :
    ∀ x ∈ l, ∃ y ∈ m, R x y := by
  induction h with
  | nil => intro x hx; cases hx
  | cons h1 _ ih =>
    intro x hx
    rcases List.mem_cons.1 hx with rfl | hx
    · exact ⟨_, List.mem_cons_self, h1⟩
    · obtain ⟨y, h3, h4⟩ := ih x hx
      exact ⟨y, List.mem_cons_of_mem _ h3, h4⟩

theorem All2.mem_right {α β : Type} {R : α → β → Prop} {l : List α} {m : List β} (h : All2 R l m) :
    ∀ y ∈ m, ∃ x ∈ l, R x y := by
  induction h with
  | nil => intro x hx; cases hx
  | cons h1 _ ih =>
    intro x hx
    rcases List.mem_cons.1 hx with rfl | hx
    · exact ⟨_, List.mem_cons_self, h1⟩
    · obtain ⟨y, h3, h4⟩ := ih x hx
      exact ⟨y, List.mem_cons_of_mem _ h3, h4⟩

theorem All2.exists_of_left {α β : Type} {R : α → β → Prop} {l : List α} (h : ∀ x ∈ l, ∃ y, R x y) :
    ∃ m, All2 R l m := by
  induction l with
  | nil => exact ⟨[], .nil⟩
  | cons x xs ih =>
    obtain ⟨y, hy⟩ := h x (by simp)
    obtain ⟨m, hm⟩ := ih (fun z hz => h z (by simp [hz]))
    exact ⟨y :: m, .cons hy hm⟩

/-- The words of an alias: its address text split at blanks, none for an empty text. -/
def words (e : Elem) : List (List Char) :=
  match (lastChild e "address").bind Elem.text with
  | none => []
  | some s => if s.toList = [] then [] else splitOn ' ' s.toList

/-- The element has what every alias needs and is of the given type and name. -/
structure AliasElem (e : Elem) (ty : String) (name : Option String) : Prop where
  descr : HasChild e "descr"
  type : ∃ c, lastChild e "type" = some c ∧ c.text = some ty
  name : ∃ c, lastChild e "name" = some c ∧ c.text = name

theorem need_descr {e : Elem} (h : HasChild e "descr") :
    ∃ c, lastChild e "descr" = some c ∧ need (childVals e) "descr" = .ok c.text := by
  cases hc : lastChild e "descr" with
  | none => exact absurd h (lastChild_none.1 hc)
  | some c => exact ⟨c, rfl, need_ok.2 ⟨c, hc, rfl⟩⟩

theorem entries_words {e : Elem} (h : HasChild e "address") : entries (childVals e) = .ok (words e) := by
  unfold entries words
  cases hc : lastChild e "address" with
  | none => exact absurd h (lastChild_none.1 hc)
  | some c =>
    rw [need_ok.2 ⟨c, hc, rfl⟩]
    simp only [bind, Except.bind, Option.bind_some]
    cases c.text with
    | none => rfl
    | some s => simp only; split <;> rfl

theorem ipAddress_error {s : List Char} (h : ∀ a, ipAddress s ≠ .ok a) : ipAddress s = .error .value := by
  cases hc : ipAddress s with
  | ok a => exact absurd hc (h a)
  | error e =>
    unfold ipAddress at hc
    split at hc
    · cases hc; rfl
    · split at hc
      · cases hc
      · split at hc
        · cases hc
        · cases hc; rfl

theorem All2.imp {α β : Type} {R S : α → β → Prop} (f : ∀ x y, R x y → S x y) {l : List α} {m : List β}
    (h : All2 R l m) : All2 S l m := by
  induction h with
  | nil => exact .nil
  | cons h1 _ ih => exact .cons (f _ _ h1) ih

/-- What one word of a host alias becomes. -/
theorem hostEntry_ok {s : List Char} {h : Host} :
    hostEntry s = .ok h ↔ (∃ a, ipAddress s = .ok a ∧ h = .host a) ∨ ((∀ a, ipAddress s ≠ .ok a) ∧ h = .any) := by
  unfold hostEntry hostOf
  by_cases hx : ∃ a, ipAddress s = .ok a
  · obtain ⟨a, ha⟩ := hx
    simp [ha, eq_comm]
  · have hx' : ∀ a, ipAddress s ≠ .ok a := fun a ha => hx ⟨a, ha⟩
    simp [ipAddress_error hx', eq_comm]

/-- A host alias is read as the list of its words. -/
theorem parseAlias_host {T : Type} {v : Env T} {e : Elem} {name : Option String} (h : AliasElem e "host" name)
    (ha : HasChild e "address") :
    ∃ d m, parseAlias v e = .ok (.net name d m) ∧
      All2 (fun s h => (∃ a, ipAddress s = .ok a ∧ h = .host a) ∨ ((∀ a, ipAddress s ≠ .ok a) ∧ h = .any))
        (words e) m := by
  obtain ⟨cd, hd, hd'⟩ := need_descr h.descr
  obtain ⟨ct, ht, ht'⟩ := h.type
  obtain ⟨cn, hn, hn'⟩ := h.name
  have e1 : need (childVals e) "type" = .ok (some "host") := need_ok.2 ⟨ct, ht, ht'⟩
  have e2 : need (childVals e) "name" = .ok name := need_ok.2 ⟨cn, hn, hn'⟩
  obtain ⟨m, hm⟩ : ∃ m, All2 (fun x y => hostEntry x = .ok y) (words e) m := by
    apply All2.exists_of_left
    intro s _
    by_cases hx : ∃ a, ipAddress s = .ok a
    · obtain ⟨a, ha⟩ := hx
      exact ⟨_, hostEntry_ok.2 (Or.inl ⟨a, ha, rfl⟩)⟩
    · exact ⟨_, hostEntry_ok.2 (Or.inr ⟨fun a ha => hx ⟨a, ha⟩, rfl⟩)⟩
  refine ⟨v.unesc (cd.text.getD ""), m, ?_, ?_⟩
  · have hp := mapPy_ok.2 hm
    simp only [parseAlias, hd', e1, e2, entries_words ha, hp, bind, Except.bind, if_true]
  · exact hm.imp (fun _ _ => hostEntry_ok.1)

/-- A host alias denotes the addresses it lists. -/
def HostAliasDenotes {T : Type} (v : Env T) (e : Elem) : Prop :=
  ∀ n d m, parseAlias v e = .ok (.net n d m) →
    ∀ x : Addr, x.Valid → (Covers (.group "" m) x ↔ ∃ w ∈ words e, ipAddress w = .ok x)

theorem covers_group {nm : String} {l : List Host} {x : Addr} :
    Covers (.group nm l) x ↔ ∃ h ∈ l, Covers h x := by
  constructor
  · intro h; cases h with | group h1 h2 => exact ⟨_, h1, h2⟩
  · rintro ⟨h, h1, h2⟩; exact .group h1 h2

theorem covers_host {a x : Addr} : Covers (.host a) x ↔ x = a := by
  constructor
  · intro h; cases h; rfl
  · rintro rfl; exact .host

theorem covers_net {n : Net} {x : Addr} : Covers (.net n) x ↔ n.Denotes x := by
  constructor
  · intro h; cases h; assumption
  · exact .net

/-- **C60 is violated** by every host alias with a word that is not an address (a host name, the name
of another alias, or a second blank): it denotes every address, also those that are not listed. -/
theorem C60_violated {T : Type} (v : Env T) (e : Elem) (name : Option String) (h : AliasElem e "host" name)
    (ha : HasChild e "address") (w : List Char) (hw : w ∈ words e) (hbad : ∀ a, ipAddress w ≠ .ok a)
    (x : Addr) (hx : x.Valid) (hxw : ∀ w ∈ words e, ipAddress w ≠ .ok x) :
    (∃ d m, parseAlias v e = .ok (.net name d m) ∧ ∀ x : Addr, x.Valid → Covers (.group "" m) x) ∧
    ¬ HostAliasDenotes v e := by
  obtain ⟨d, m, h1, h2⟩ := parseAlias_host (v := v) h ha
  have hany : Host.any ∈ m := by
    obtain ⟨y, hy, hr⟩ := h2.mem_left w hw
    rcases hr with ⟨a, hr, -⟩ | ⟨-, rfl⟩
    · exact absurd hr (hbad a)
    · exact hy
  have hcov : ∀ x : Addr, x.Valid → Covers (.group "" m) x := fun x hx => .group hany (.any hx)
  refine ⟨⟨d, m, h1, hcov⟩, ?_⟩
  intro hden
  obtain ⟨w', h3, h4⟩ := (hden name d m h1 x hx).1 (hcov x hx)
  exact hxw w' h3 h4

/-- A host alias with a host name in it. -/
def badAlias : Elem := .mk "alias" none
  [leaf "name" (some "servers"), leaf "type" (some "host"), leaf "address" (some "10.0.0.1 www"),
   leaf "descr" (some "")]

/-- The hypotheses are met: the alias `10.0.0.1 www` covers 8.8.8.8. -/
theorem C60_violated_sample : ¬ HostAliasDenotes sampleEnv badAlias := by
  refine (C60_violated sampleEnv badAlias (some "servers") ⟨?_, ⟨_, rfl, rfl⟩, ⟨_, rfl, rfl⟩⟩ ?_
    "www".toList (by decide +kernel) ?_ ⟨.v4, 0x08080808⟩ (by decide +kernel) ?_).2
  · exact ⟨leaf "descr" (some ""), by simp [badAlias, Elem.children], rfl⟩
  · exact ⟨leaf "address" (some "10.0.0.1 www"), by simp [badAlias, Elem.children], rfl⟩
  · have : ipAddress "www".toList = .error .value := by decide +kernel
    intro a ha; rw [this] at ha; cases ha
  · have hw : words badAlias = ["10.0.0.1".toList, "www".toList] := by decide +kernel
    rw [hw]
    have e1 : ipAddress "www".toList = .error .value := by decide +kernel
    have e2 : ipAddress "10.0.0.1".toList = .ok ⟨.v4, 0x0a000001⟩ := by decide +kernel
    intro w hw'
    rcases List.mem_cons.1 hw' with rfl | hw'
    · rw [e2]; intro h; cases h
    · rcases List.mem_cons.1 hw' with rfl | hw'
      · rw [e1]; intro h; cases h
      · cases hw'

/-- **C60, the part that holds**: a host alias all of whose words are addresses denotes exactly
these. -/
theorem C60_host_partial {T : Type} (v : Env T) (e : Elem) (name : Option String) (h : AliasElem e "host" name)
    (ha : HasChild e "address") (hall : ∀ w ∈ words e, ∃ a, ipAddress w = .ok a) :
    (∃ d m, parseAlias v e = .ok (.net name d m)) ∧ HostAliasDenotes v e := by
  obtain ⟨d, m, h1, h2⟩ := parseAlias_host (v := v) h ha
  refine ⟨⟨d, m, h1⟩, ?_⟩
  intro n' d' m' h3 x _
  rw [h1] at h3
  cases h3
  rw [covers_group]
  constructor
  · rintro ⟨y, hy, hc⟩
    obtain ⟨w, hw, hr⟩ := h2.mem_right y hy
    rcases hr with ⟨a, hr, rfl⟩ | ⟨hr, -⟩
    · exact ⟨w, hw, by rw [covers_host.1 hc]; exact hr⟩
    · obtain ⟨a, ha'⟩ := hall w hw
      exact absurd ha' (hr a)
  · rintro ⟨w, hw, hx⟩
    obtain ⟨y, hy, hr⟩ := h2.mem_left w hw
    rcases hr with ⟨a, hr, rfl⟩ | ⟨hr, -⟩
    · rw [hx] at hr
      cases hr
      exact ⟨_, hy, .host⟩
    · exact absurd hx (hr x)

/-- The word is `address/mask`. -/
def NetWord (w : List Char) (y : Addr) (n : Nat) : Prop :=
  ∃ a m, w = a ++ '/' :: m ∧ '/' ∉ a ∧ '/' ∉ m ∧ ipAddress a = .ok y ∧ MaskText y.ver m n

theorem netEntry_ok {w : List Char} {h : Host} (hw : netEntry w = .ok h) :
    ∃ y n net, NetWord w y n ∧ h = .net net ∧ ∀ x, net.Denotes x ↔ AgreeTop n x y := by
  obtain ⟨a, m, net, h1, h2, rfl⟩ := networkOf_ok.1 hw
  obtain ⟨h3, h4, h5⟩ := splitOn_two h1
  obtain ⟨y, n, h6, h7, h8⟩ := mkNetwork_meaning h2
  exact ⟨y, n, net, ⟨a, m, h3, h4, h5, h6, h7⟩, rfl, h8⟩

theorem netEntry_of {w : List Char} {y : Addr} {n : Nat} (h : NetWord w y n) :
    ∃ net, netEntry w = .ok (.net net) ∧ ∀ x, net.Denotes x ↔ AgreeTop n x y := by
  obtain ⟨a, m, rfl, h1, h2, h3, h4⟩ := h
  obtain ⟨net, h5, -, -, h6, -⟩ := C19_network_denotes _ _ _ _ h3 h4
  refine ⟨net, ?_, h6⟩
  unfold netEntry
  rw [splitOn_two' h1 h2]
  exact networkOf_ok.2 ⟨a, m, net, rfl, h5, rfl⟩

theorem parseAlias_net {T : Type} {v : Env T} {e : Elem} {name : Option String} (h : AliasElem e "network" name)
    (ha : HasChild e "address") :
    ∃ d, parseAlias v e = (mapPy netEntry (words e)).map (AliasGroup.net name d) := by
  obtain ⟨cd, hd, hd'⟩ := need_descr h.descr
  obtain ⟨ct, ht, ht'⟩ := h.type
  obtain ⟨cn, hn, hn'⟩ := h.name
  have e1 : need (childVals e) "type" = .ok (some "network") := need_ok.2 ⟨ct, ht, ht'⟩
  have e2 : need (childVals e) "name" = .ok name := need_ok.2 ⟨cn, hn, hn'⟩
  refine ⟨v.unesc (cd.text.getD ""), ?_⟩
  simp only [parseAlias, hd', e1, e2, entries_words ha, bind, Except.bind]
  rw [if_neg (by decide), if_pos trivial]
  cases mapPy netEntry (words e) <;> rfl

/-- **C60, network aliases**: accepted iff every word is `address/mask`; then the alias denotes
exactly the addresses that agree with one of the listed addresses on the bits of its mask. -/
theorem C60_network_partial {T : Type} (v : Env T) (e : Elem) (name : Option String)
    (h : AliasElem e "network" name) (ha : HasChild e "address") :
    ((∃ g, parseAlias v e = .ok g) ↔ ∀ w ∈ words e, ∃ y n, NetWord w y n) ∧
    ∀ g, parseAlias v e = .ok g → ∃ d m, g = .net name d m ∧
      ∀ x, Covers (.group "" m) x ↔ ∃ w ∈ words e, ∃ y n, NetWord w y n ∧ AgreeTop n x y := by
  obtain ⟨d, hp⟩ := parseAlias_net (v := v) h ha
  rw [hp]
  constructor
  · constructor
    · rintro ⟨g, hg⟩ w hw
      cases hm : mapPy netEntry (words e) with
      | error x => rw [hm] at hg; cases hg
      | ok m =>
        obtain ⟨y, -, hr⟩ := (mapPy_ok.1 hm).mem_left w hw
        obtain ⟨y, n, net, h1, -, -⟩ := netEntry_ok hr
        exact ⟨y, n, h1⟩
    · intro hw
      obtain ⟨m, hm⟩ : ∃ m, All2 (fun x y => netEntry x = .ok y) (words e) m := by
        apply All2.exists_of_left
        intro w hw'
        obtain ⟨y, n, h1⟩ := hw w hw'
        obtain ⟨net, h2, -⟩ := netEntry_of h1
        exact ⟨_, h2⟩
      rw [mapPy_ok.2 hm]
      exact ⟨_, rfl⟩
  · intro g hg
    cases hm : mapPy netEntry (words e) with
    | error x => rw [hm] at hg; cases hg
    | ok m =>
      rw [hm] at hg
      cases hg
      refine ⟨d, m, rfl, ?_⟩
      have hm' := mapPy_ok.1 hm
      intro x
      rw [covers_group]
      constructor
      · rintro ⟨z, hz, hc⟩
        obtain ⟨w, hw, hr⟩ := hm'.mem_right z hz
        obtain ⟨y, n, net, h1, rfl, h2⟩ := netEntry_ok hr
        exact ⟨w, hw, y, n, h1, (h2 x).1 (covers_net.1 hc)⟩
      · rintro ⟨w, hw, y, n, h1, h2⟩
        obtain ⟨z, hz, hr⟩ := hm'.mem_left w hw
        obtain ⟨net, h3, h4⟩ := netEntry_of h1
        rw [hr] at h3
        cases h3
        exact ⟨_, hz, covers_net.2 ((h4 x).2 h2)⟩

/-- What a word of a port alias says. -/
inductive PortWord (w : List Char) : PortLeaf → Prop
  | one : ':' ∉ w → PortWord w (.port ⟨some "eq", some (String.ofList w)⟩)
  | range (a b : List Char) : w = a ++ ':' :: b → ':' ∉ a → ':' ∉ b →
      (∀ i j, pyInt a = some i → pyInt b = some j → String.ofList a < String.ofList b) →
      PortWord w (.range (String.ofList a) (String.ofList b))

theorem portEntry_ok {w : List Char} {p : PortLeaf} : portEntry w = .ok p ↔ PortWord w p := by
  unfold portEntry
  split
  · rename_i hc
    unfold rangeOf
    constructor
    · intro h
      split at h
      · rename_i a b hs
        obtain ⟨h1, h2, h3⟩ := splitOn_two hs
        obtain ⟨rfl, h5⟩ := mkPortRange_ok.1 h
        exact .range a b h1 h2 h3 (by simpa using h5)
      · cases h
    · intro h
      cases h with
      | one h1 => exact absurd hc h1
      | range a b h1 h2 h3 h4 =>
        subst h1
        rw [splitOn_two' h2 h3]
        exact mkPortRange_ok.2 ⟨rfl, by simpa using h4⟩
  · rename_i hc
    constructor
    · intro h; cases h; exact .one hc
    · intro h
      cases h with
      | one => rfl
      | range a b h1 => subst h1; simp at hc

/-- **C60, types**: an accepted alias has a description and a name and is of one of the four types. -/
theorem C60_types_partial {T : Type} (v : Env T) (e : Elem) (g : AliasGroup) (h : parseAlias v e = .ok g) :
    ∃ ty name, ty ∈ ["host", "network", "urltable", "port"] ∧ AliasElem e ty name ∧
      ∃ d, (ty = "port" → ∃ m, g = .port name d m) ∧ (ty ≠ "port" → ∃ m, g = .net name d m) := by
  unfold parseAlias at h
  rw [bind_ok] at h
  obtain ⟨descr, h1, h⟩ := h
  rw [bind_ok] at h
  obtain ⟨ty, h2, h⟩ := h
  obtain ⟨cd, hcd, -⟩ := need_ok.1 h1
  have hdescr : HasChild e "descr" := by
    apply Classical.byContradiction
    intro hc
    rw [lastChild_none.2 hc] at hcd
    cases hcd
  obtain ⟨ct, hct, hty⟩ := need_ok.1 h2
  have mk : ∀ t name, ty = some t → need (childVals e) "name" = .ok name → AliasElem e t name := by
    intro t name h3 h4
    obtain ⟨cn, h5, h6⟩ := need_ok.1 h4
    exact ⟨hdescr, ⟨ct, hct, by rw [hty, h3]⟩, ⟨cn, h5, h6⟩⟩
  split at h
  · rename_i ht
    rw [bind_ok] at h
    obtain ⟨name, h3, h⟩ := h
    rw [bind_ok] at h
    obtain ⟨l, -, h⟩ := h
    rw [bind_ok] at h
    obtain ⟨m, -, h⟩ := h
    cases h
    exact ⟨"host", name, by simp, mk _ _ ht h3, _, by simp, fun _ => ⟨_, rfl⟩⟩
  · split at h
    · rename_i ht
      rw [bind_ok] at h
      obtain ⟨name, h3, h⟩ := h
      rw [bind_ok] at h
      obtain ⟨l, -, h⟩ := h
      rw [bind_ok] at h
      obtain ⟨m, -, h⟩ := h
      cases h
      exact ⟨"network", name, by simp, mk _ _ ht h3, _, by simp, fun _ => ⟨_, rfl⟩⟩
    · split at h
      · rename_i ht
        rw [bind_ok] at h
        obtain ⟨name, h3, h⟩ := h
        have : ∃ d m, g = .net name d m := by
          repeat' split at h
          all_goals (cases h; exact ⟨_, _, rfl⟩)
        obtain ⟨d, m, rfl⟩ := this
        exact ⟨"urltable", name, by simp, mk _ _ ht h3, d, by simp, fun _ => ⟨_, rfl⟩⟩
      · split at h
        · rename_i ht
          rw [bind_ok] at h
          obtain ⟨name, h3, h⟩ := h
          rw [bind_ok] at h
          obtain ⟨l, -, h⟩ := h
          rw [bind_ok] at h
          obtain ⟨m, -, h⟩ := h
          cases h
          exact ⟨"port", name, by simp, mk _ _ ht h3, _, fun _ => ⟨_, rfl⟩, by simp⟩
        · cases h

/-- **C60, port aliases**: accepted iff every word is a port or an ascending range `a:b` (ascending as
texts, see C33); the members are the words in order. -/
theorem C60_port_partial {T : Type} (v : Env T) (e : Elem) (name : Option String)
    (h : AliasElem e "port" name) (ha : HasChild e "address") (g : AliasGroup) :
    parseAlias v e = .ok g ↔
      ∃ cd m, lastChild e "descr" = some cd ∧ g = .port name (v.unesc (cd.text.getD "")) m ∧
        All2 PortWord (words e) m := by
  obtain ⟨cd, hd, hd'⟩ := need_descr h.descr
  obtain ⟨ct, ht, ht'⟩ := h.type
  obtain ⟨cn, hn, hn'⟩ := h.name
  have e1 : need (childVals e) "type" = .ok (some "port") := need_ok.2 ⟨ct, ht, ht'⟩
  have e2 : need (childVals e) "name" = .ok name := need_ok.2 ⟨cn, hn, hn'⟩
  have hp : parseAlias v e = (mapPy portEntry (words e)).map (AliasGroup.port name (v.unesc (cd.text.getD ""))) := by
    simp only [parseAlias, hd', e1, e2, entries_words ha, bind, Except.bind]
    rw [if_neg (by decide), if_neg (by decide), if_neg (by decide), if_pos trivial]
    cases mapPy portEntry (words e) <;> rfl
  have hall : ∀ l m, All2 (fun x y => portEntry x = .ok y) l m ↔ All2 PortWord l m := by
    intro l m
    constructor
    · intro h; induction h with
      | nil => exact .nil
      | cons h1 _ ih => exact .cons (portEntry_ok.1 h1) ih
    · intro h; induction h with
      | nil => exact .nil
      | cons h1 _ ih => exact .cons (portEntry_ok.2 h1) ih
  rw [hp]
  constructor
  · intro hg
    cases hm : mapPy portEntry (words e) with
    | error x => rw [hm] at hg; cases hg
    | ok m =>
      rw [hm] at hg
      cases hg
      exact ⟨cd, m, hd, rfl, (hall _ _).1 (mapPy_ok.1 hm)⟩
  · rintro ⟨cd', m, h1, rfl, h2⟩
    rw [hd] at h1
    cases h1
    rw [mapPy_ok.2 ((hall _ _).2 h2)]
    rfl

/-- What a line of a URL table says about an address. -/
inductive UrlLine (l : List Char) (x : Addr) : Prop
  | host : '/' ∉ strip l → ipAddress (strip l) = .ok x → UrlLine l x
  | net (y : Addr) (n : Nat) : NetWord (strip l) y n →
      (∀ i, i < y.ver.width - n → y.ip.testBit i = false) → AgreeTop n x y → UrlLine l x

theorem hostbits_iff {y : Addr} {n : Nat} {net : Net}
    (h : ∀ x, net.Denotes x ↔ AgreeTop n x y)
    (hz : ∀ i, i < y.ver.width - n → net.addr.testBit i = false) :
    y.ip = net.addr ↔ ∀ i, i < y.ver.width - n → y.ip.testBit i = false := by
  have h0 : net.Denotes ⟨net.ver, net.addr⟩ :=
    ⟨rfl, Nat.le_refl _, Nat.lt_add_of_pos_right (Nat.two_pow_pos _)⟩
  have h1 := (h _).1 h0
  constructor
  · intro he i hi
    rw [he]
    exact hz i hi
  · intro hy
    apply Nat.eq_of_testBit_eq
    intro i
    by_cases hi : i < y.ver.width - n
    · rw [hz i hi, hy i hi]
    · exact (h1.2 i (by omega)).symm

theorem urlLine_covers {l : List Char} {x : Addr} :
    (∃ h, urlLine l = some h ∧ Covers h x) ↔ UrlLine l x := by
  unfold urlLine
  simp only
  split
  · rename_i hs
    constructor
    · rintro ⟨h, h1, h2⟩
      split at h1
      · rename_i a m hsp
        obtain ⟨h3, h4, h5⟩ := splitOn_two hsp
        cases hm : mkNetwork a m with
        | error e => simp [strictNet, hm] at h1
        | ok net =>
          obtain ⟨y, n, h6, h7, h8⟩ := mkNetwork_meaning hm
          obtain ⟨net', h9, -, -, -, h10⟩ := C19_network_denotes _ _ _ _ h6 h7
          rw [hm] at h9
          cases h9
          by_cases hip : y.ip = net.addr
          · simp [strictNet, hm, h6, hip] at h1
            subst h1
            exact .net y n ⟨a, m, h3, h4, h5, h6, h7⟩ ((hostbits_iff h8 h10).1 hip) ((h8 x).1 (covers_net.1 h2))
          · simp [strictNet, hm, h6, hip] at h1
      · cases h1
    · intro h
      cases h with
      | host h1 => exact absurd hs h1
      | net y n h1 h2 h3 =>
        obtain ⟨a, m, he, h4, h5, h6, h7⟩ := h1
        obtain ⟨net, h8, -, -, h9, h10⟩ := C19_network_denotes _ _ _ _ h6 h7
        have hip := (hostbits_iff h9 h10).2 h2
        rw [he, splitOn_two' h4 h5]
        refine ⟨.net net, ?_, covers_net.2 ((h9 x).2 h3)⟩
        simp [strictNet, h8, h6, hip]
  · rename_i hs
    constructor
    · rintro ⟨h, h1, h2⟩
      split at h1
      · cases h1
      · rename_i a ha
        cases h1
        rw [covers_host] at h2
        subst h2
        exact .host hs ha
    · intro h
      cases h with
      | host h1 h2 => rw [h2]; exact ⟨_, rfl, .host⟩
      | net y n h1 h2 h3 =>
        obtain ⟨a, m, he, -⟩ := h1
        rw [he] at hs
        simp at hs

/-- **C60, URL tables**: without fetching, and only then, the alias denotes every address; else it
denotes the addresses of the lines that are an address or a network without host bits (the other
lines are skipped), and nothing when the table cannot be fetched. -/
theorem C60_urltable_partial {T : Type} (v : Env T) (e : Elem) (name : Option String)
    (h : AliasElem e "urltable" name) :
    ∃ d m, parseAlias v e = .ok (.net name d m) ∧
      (v.fetch = false → ∀ x : Addr, x.Valid → Covers (.group "" m) x) ∧
      (v.fetch = true → ∀ x : Addr, Covers (.group "" m) x ↔
        ∃ cu data, lastChild e "url" = some cu ∧ v.url cu.text = some data ∧
          ∃ l ∈ splitOn '\n' data.toList, UrlLine l x) := by
  obtain ⟨cd, hd, hd'⟩ := need_descr h.descr
  obtain ⟨ct, ht, ht'⟩ := h.type
  obtain ⟨cn, hn, hn'⟩ := h.name
  have e1 : need (childVals e) "type" = .ok (some "urltable") := need_ok.2 ⟨ct, ht, ht'⟩
  have e2 : need (childVals e) "name" = .ok name := need_ok.2 ⟨cn, hn, hn'⟩
  simp only [parseAlias, hd', e1, e2, bind, Except.bind]
  rw [if_neg (by decide), if_neg (by decide), if_pos trivial]
  cases hf : v.fetch with
  | false =>
    exact ⟨_, _, rfl, fun _ x hx => .group (List.mem_singleton.2 rfl) (.any hx), fun h => by cases h⟩
  | true =>
    simp only [if_true]
    cases hu : lastChild e "url" with
    | none =>
      rw [dGet_childVals_none hu]
      refine ⟨_, _, rfl, (fun h => nomatch h), fun _ x => ?_⟩
      simp [covers_group]
    | some cu =>
      rw [dGet_childVals_some hu]
      simp only
      cases hd : v.url cu.text with
      | none =>
        refine ⟨_, _, rfl, (fun h => nomatch h), fun _ x => ?_⟩
        simp [covers_group, hd]
      | some data =>
        refine ⟨_, _, rfl, (fun h => nomatch h), fun _ x => ?_⟩
        rw [covers_group]
        constructor
        · rintro ⟨z, hz, hc⟩
          obtain ⟨l, hl, hz'⟩ := List.mem_filterMap.1 hz
          exact ⟨cu, data, rfl, hd, l, hl, urlLine_covers.1 ⟨z, hz', hc⟩⟩
        · rintro ⟨cu', data', h1, h2, l, hl, hx⟩
          cases h1
          rw [hd] at h2
          cases h2
          obtain ⟨z, hz, hc⟩ := urlLine_covers.2 hx
          exact ⟨z, List.mem_filterMap.2 ⟨l, hl, hz⟩, hc⟩

/-! ### the tables of aliases -/

/-- The network alias as it stands in the tables, and its name. -/
def AliasGroup.netOf (n : Option String) : AliasGroup → Option (List Host)
  | .net n' _ m => if n' = n then some m else none
  | .port .. => none

/-- The port alias as it stands in the tables. -/
def AliasGroup.portOf (n : Option String) : AliasGroup → Option (List PortLeaf)
  | .port n' _ m => if n' = n then some m else none
  | .net .. => none

theorem parseAliases_means {T : Type} {v : Env T} {l : List Elem} : ∀ {t t' : Tables} {gs : List AliasGroup},
    parseAliases v t l = .ok (t', gs) ↔ All2 (fun e g => parseAlias v e = .ok g) l gs ∧ t' = gs.foldl Tables.addGroup t := by
  induction l with
  | nil =>
    intro t t' gs
    constructor
    · intro h; cases h; exact ⟨.nil, rfl⟩
    · rintro ⟨h, rfl⟩; cases h; rfl
  | cons x xs ih =>
    intro t t' gs
    simp only [parseAliases, bind_ok]
    constructor
    · rintro ⟨g, h1, ⟨t2, gs2⟩, h2, h3⟩
      cases h3
      obtain ⟨h4, rfl⟩ := ih.1 h2
      exact ⟨.cons h1 h4, rfl⟩
    · rintro ⟨h, rfl⟩
      cases h with
      | cons h1 h2 => exact ⟨_, h1, (_, _), ih.2 ⟨h2, rfl⟩, rfl⟩

theorem addGroups_nets (gs : List AliasGroup) : ∀ (t : Tables) (k : Option String),
    dGet (gs.foldl Tables.addGroup t).nets k =
      ((gs.filterMap (AliasGroup.netOf k)).getLast?.map (Host.group (k.getD "None"))).or (dGet t.nets k) := by
  induction gs with
  | nil => intro t k; rfl
  | cons g gs ih =>
    intro t k
    rw [List.foldl_cons, ih]
    cases g with
    | net n d m =>
      by_cases hk : n = k
      · subst hk
        simp only [Tables.addGroup, dGet_dSet_same, List.filterMap_cons, AliasGroup.netOf, if_true,
          List.getLast?_cons]
        cases (gs.filterMap (AliasGroup.netOf n)).getLast? <;> rfl
      · simp [Tables.addGroup, dGet_dSet_other _ _ (Ne.symm hk), AliasGroup.netOf, hk]
    | port n d m => simp [Tables.addGroup, AliasGroup.netOf]

theorem addGroups_ports (gs : List AliasGroup) : ∀ (t : Tables) (k : Option String),
    dGet (gs.foldl Tables.addGroup t).ports k =
      ((gs.filterMap (AliasGroup.portOf k)).getLast?.map (PortRef.group k)).or (dGet t.ports k) := by
  induction gs with
  | nil => intro t k; rfl
  | cons g gs ih =>
    intro t k
    rw [List.foldl_cons, ih]
    cases g with
    | port n d m =>
      by_cases hk : n = k
      · subst hk
        simp only [Tables.addGroup, dGet_dSet_same, List.filterMap_cons, AliasGroup.portOf, if_true,
          List.getLast?_cons]
        cases (gs.filterMap (AliasGroup.portOf n)).getLast? <;> rfl
      · simp [Tables.addGroup, dGet_dSet_other _ _ (Ne.symm hk), AliasGroup.portOf, hk]
    | net n d m => simp [Tables.addGroup, AliasGroup.portOf]

theorem addGroups_rest (gs : List AliasGroup) : ∀ (t : Tables),
    (gs.foldl Tables.addGroup t).ifaces = t.ifaces ∧ (gs.foldl Tables.addGroup t).ifmap = t.ifmap := by
  induction gs with
  | nil => intro t; exact ⟨rfl, rfl⟩
  | cons g gs ih =>
    intro t
    rw [List.foldl_cons, (ih _).1, (ih _).2]
    cases g <;> exact ⟨rfl, rfl⟩

theorem addIfaces_rest (os : List Intf) : ∀ (t : Tables),
    (os.foldl Tables.addIface t).nets = t.nets ∧ (os.foldl Tables.addIface t).ports = t.ports := by
  induction os with
  | nil => intro t; exact ⟨rfl, rfl⟩
  | cons o os ih =>
    intro t
    rw [List.foldl_cons, (ih _).1, (ih _).2]
    unfold Tables.addIface
    exact ⟨rfl, rfl⟩

/-! ## C61: the whole configuration -/

/-- The sections of a kind, their elements in document order. -/
def sectionOf (root : Elem) (tag : String) : List Elem :=
  (root.children.filter (fun c => c.tag == tag)).flatMap Elem.children

/-- The tables the rules are read with. -/
structure TablesOf (gs : List AliasGroup) (os : List Intf) (t : Tables) : Prop where
  nets : ∀ k, dGet t.nets k = (gs.filterMap (AliasGroup.netOf k)).getLast?.map (Host.group (k.getD "None"))
  ports : ∀ k, dGet t.ports k = (gs.filterMap (AliasGroup.portOf k)).getLast?.map (PortRef.group k)
  ifaces : ∀ k, dGet t.ifaces k = (os.filter (fun o => o.alias == k)).getLast?
  ifmap : ∀ k, t.mapped k = (((os.filter (fun o => o.description == some k)).getLast?).map (·.alias)).getD k

theorem All2.append {α β : Type} {R : α → β → Prop} {l l' : List α} {m m' : List β} (h : All2 R l m)
    (h' : All2 R l' m') : All2 R (l ++ l') (m ++ m') := by
  induction h with
  | nil => exact h'
  | cons h1 _ ih => exact .cons h1 ih

theorem aliasSections {T : Type} {v : Env T} {xs : List Elem} : ∀ {t : Tables} {l : List AliasGroup} {t' l'},
    foldPy (fun (p : Tables × List AliasGroup) e => do
        let (t', gs') ← parseAliases v p.1 e.children
        .ok (t', p.2 ++ gs')) (t, l) xs = .ok (t', l') →
    ∃ gs, l' = l ++ gs ∧ All2 (fun e g => parseAlias v e = .ok g) (xs.flatMap Elem.children) gs ∧
      t' = gs.foldl Tables.addGroup t := by
  induction xs with
  | nil => intro t l t' l' h; cases h; exact ⟨[], by simp, .nil, rfl⟩
  | cons x xs ih =>
    intro t l t' l' h
    simp only [foldPy, bind_ok] at h
    obtain ⟨p, ⟨⟨t2, gs2⟩, h1, h2⟩, h3⟩ := h
    cases h2
    obtain ⟨gs, h4, h5, h6⟩ := ih h3
    obtain ⟨h7, rfl⟩ := parseAliases_means.1 h1
    exact ⟨gs2 ++ gs, by rw [h4, List.append_assoc], by rw [List.flatMap_cons]; exact h7.append h5,
      by rw [h6, List.foldl_append]⟩

theorem ifaceSections {T : Type} {v : Env T} {xs : List Elem} : ∀ {t : Tables} {l : List Intf} {t' l'},
    foldPy (fun (p : Tables × List Intf) e => do
        let (t', os') ← parseIfaces v p.1 e.children
        .ok (t', p.2 ++ os')) (t, l) xs = .ok (t', l') →
    ∃ os, l' = l ++ os ∧ All2 (IfaceMeans v) (xs.flatMap Elem.children) os ∧
      t' = os.foldl Tables.addIface t := by
  induction xs with
  | nil => intro t l t' l' h; cases h; exact ⟨[], by simp, .nil, rfl⟩
  | cons x xs ih =>
    intro t l t' l' h
    simp only [foldPy, bind_ok] at h
    obtain ⟨p, ⟨⟨t2, gs2⟩, h1, h2⟩, h3⟩ := h
    cases h2
    obtain ⟨gs, h4, h5, h6⟩ := ih h3
    obtain ⟨h7, rfl⟩ := parseIfaces_means h1
    exact ⟨gs2 ++ gs, by rw [h4, List.append_assoc], by rw [List.flatMap_cons]; exact h7.append h5,
      by rw [h6, List.foldl_append]⟩

/-- The rule that stands for a rule element; the head comes from the separators (C48). -/
def RuleFor {T : Type} (v : Env T) (t : Tables) (e : Elem) (r : PfRule T) : Prop :=
  ∃ r0, parseRule v t e = .ok r0 ∧ r = { r0 with head := r.head }

theorem sepLoop_rules {T : Type} {v : Env T} {t : Tables} {s : Seps} {rs : List (PfRule T)} :
    ∀ {l : List Elem} {i : Option String} {a b : Nat}, All2 (RuleFor v t) l rs → All2 (RuleFor v t) l (sepLoop s i a b rs) := by
  induction rs with
  | nil => intro l i a b h; exact h
  | cons r rs ih =>
    intro l i a b h
    cases h with
    | cons h1 h2 =>
      simp only [sepLoop]
      refine .cons ?_ (ih h2)
      obtain ⟨r0, h3, h4⟩ := h1
      refine ⟨r0, h3, ?_⟩
      split
      · exact h4
      · split
        · exact h4
        · rw [h4]

theorem filterLoop_rules {T : Type} {v : Env T} {t : Tables} {l : List Elem} :
    ∀ {pre : List Elem} {rs out : List (PfRule T)}, All2 (RuleFor v t) pre rs → filterLoop v t rs l = .ok out →
      All2 (RuleFor v t) (pre ++ l.filter (fun c => c.tag == "rule")) out := by
  induction l with
  | nil => intro pre rs out h ho; cases ho; simpa using h
  | cons c cs ih =>
    intro pre rs out h ho
    unfold filterLoop at ho
    split at ho
    · rename_i hc
      obtain ⟨r, h1, h2⟩ := bind_ok.1 ho
      have := ih (h.append (.cons (⟨r, h1, rfl⟩ : RuleFor v t c r) .nil)) h2
      simpa [List.filter_cons, hc] using this
    · rename_i hc
      split at ho
      · obtain ⟨s, -, h2⟩ := bind_ok.1 ho
        have := ih (sepLoop_rules (s := s) (i := none) (a := 0) (b := 0) h) h2
        simpa [List.filter_cons, hc] using this
      · cases ho

theorem filterSections {T : Type} {v : Env T} {t : Tables} {xs : List Elem} : ∀ {l l' : List (PfRule T)},
    foldPy (fun (l : List (PfRule T)) e => do
        let l' ← filterLoop v t [] e.children
        .ok (l ++ l')) l xs = .ok l' →
    ∃ rs, l' = l ++ rs ∧ All2 (RuleFor v t) ((xs.flatMap Elem.children).filter (fun c => c.tag == "rule")) rs := by
  induction xs with
  | nil => intro l l' h; cases h; exact ⟨[], by simp, .nil⟩
  | cons x xs ih =>
    intro l l' h
    simp only [foldPy, bind_ok] at h
    obtain ⟨p, ⟨rs2, h1, h2⟩, h3⟩ := h
    cases h2
    obtain ⟨rs, h4, h5⟩ := ih h3
    have h7 := filterLoop_rules All2.nil h1
    exact ⟨rs2 ++ rs, by rw [h4, List.append_assoc],
      by rw [List.flatMap_cons, List.filter_append]; exact (by simpa using h7 : All2 _ _ _).append h5⟩

/-- **C61.** A configuration that is accepted has the tag of a pfSense or OPNsense configuration, and
its groups, interfaces and rules are those of all alias, interface and rule elements in document
order, none missing, none added.  Every rule is read with all aliases and interfaces, also those of
sections behind it; among aliases of one name the last one counts.  The host name is that of the last
system section. -/
theorem C61_configuration {T : Type} (v : Env T) (root : Elem) (p : Parsed T) (h : parse v root = .ok p) :
    (root.tag = "pfsense" ∨ root.tag = "opnsense") ∧
    All2 (fun e g => parseAlias v e = .ok g) (sectionOf root "aliases") p.groups ∧
    All2 (IfaceMeans v) (sectionOf root "interfaces") p.interfaces ∧
    (∃ t, TablesOf p.groups p.interfaces t ∧
      All2 (RuleFor v t) ((sectionOf root "filter").filter (fun c => c.tag == "rule")) p.rules) ∧
    p.hostname = ((findall root "system").getLast?).map (fun e =>
      ((lastChild e "hostname").bind Elem.text).getD "None" ++ "." ++ ((lastChild e "domain").bind Elem.text).getD "None") := by
  unfold parse at h
  split at h
  · cases h
  · rename_i htag
    simp only [bind_ok] at h
    obtain ⟨-, -, ⟨t1, gs1⟩, h1, ⟨t2, os1⟩, h2, rs, h3, h4⟩ := h
    cases h4
    obtain ⟨gs, e1, h5, rfl⟩ := aliasSections h1
    obtain ⟨os, e2, h6, rfl⟩ := ifaceSections h2
    obtain ⟨rs', e3, h7⟩ := filterSections h3
    simp only [List.nil_append] at e1 e2 e3
    subst e1 e2 e3
    refine ⟨?_, h5, h6, ⟨_, ⟨?_, ?_, ?_, ?_⟩, h7⟩, ?_⟩
    · by_cases ha : root.tag = "pfsense"
      · exact Or.inl ha
      · by_cases hb : root.tag = "opnsense"
        · exact Or.inr hb
        · exact absurd ⟨ha, hb⟩ htag
    · intro k
      rw [(addIfaces_rest _ _).1, addGroups_nets]
      simp [dGet]
    · intro k
      rw [(addIfaces_rest _ _).2, addGroups_ports]
      simp [dGet]
    · intro k
      rw [addIfaces_ifaces, (addGroups_rest _ _).1]
      simp [dGet]
    · intro k
      unfold Tables.mapped
      rw [addIfaces_ifmap, (addGroups_rest _ _).2]
      simp [dGet]
    · simp only [List.getLast?_map]
      congr 1
      funext e
      unfold parseSystem
      have : ∀ k, (dGet (childVals e) k).getD none = (lastChild e k).bind Elem.text := by
        intro k
        cases hk : lastChild e k with
        | none => rw [dGet_childVals_none hk]; rfl
        | some c => rw [dGet_childVals_some hk]; rfl
      simp only [this]

/-- The interface has no static address. -/
def Dynamic (e : Elem) : Prop := ∀ c, lastChild e "ipaddr" = some c → c.text = some "dhcp"

theorem parseIfaces_dynamic {T : Type} {v : Env T} {l : List Elem} : ∀ {t : Tables} {r},
    parseIfaces v t l = .ok r → ∀ e ∈ l, Dynamic e := by
  induction l with
  | nil => intro t r _ e he; cases he
  | cons x xs ih =>
    intro t r h e he
    simp only [parseIfaces, bind_ok] at h
    obtain ⟨⟨t1, o⟩, h1, ⟨t2, os'⟩, h2, -⟩ := h
    rcases List.mem_cons.1 he with rfl | he
    · intro c hc
      apply Classical.byContradiction
      intro hne
      obtain ⟨err, he⟩ := C49_violated v t e c hc hne
      rw [h1] at he
      cases he
    · exact ih h2 e he

/-- The consequence of C49 for a whole configuration: one interface with a static address makes the
whole configuration unreadable. -/
theorem C49_violated_configuration {T : Type} (v : Env T) (root e c : Elem) (he : e ∈ sectionOf root "interfaces")
    (hc : lastChild e "ipaddr" = some c) (hs : c.text ≠ some "dhcp") : ∀ p, parse v root ≠ .ok p := by
  intro p h
  unfold parse at h
  split at h
  · cases h
  · simp only [bind_ok] at h
    obtain ⟨-, -, ⟨t1, gs1⟩, -, ⟨t2, os1⟩, h2, -⟩ := h
    have key : ∀ (xs : List Elem) (t : Tables) (l : List Intf) r,
        foldPy (fun (p : Tables × List Intf) e => do
          let (t', os') ← parseIfaces v p.1 e.children
          .ok (t', p.2 ++ os')) (t, l) xs = .ok r → ∀ e ∈ xs.flatMap Elem.children, Dynamic e := by
      intro xs
      induction xs with
      | nil => intro t l r _ e he; cases he
      | cons x xs ih =>
        intro t l r h e he
        simp only [foldPy, bind_ok] at h
        obtain ⟨p, ⟨⟨t2, os2⟩, h1, h2⟩, h3⟩ := h
        cases h2
        rw [List.flatMap_cons, List.mem_append] at he
        rcases he with he | he
        · exact parseIfaces_dynamic h1 e he
        · exact ih _ _ _ h3 e he
    exact hs (key _ _ _ _ h2 e he c hc)

/-- A configuration with two aliases of one name, two interfaces, two filter sections. -/
def sampleConfig : Elem := .mk "pfsense" none
  [.mk "filter" none [.mk "rule" none [leaf "type" (some "pass"), leaf "interface" (some "wan"),
      leaf "descr" (some "one"), .mk "source" none [leaf "address" (some "a")]]],
   .mk "aliases" none
    [.mk "alias" none [leaf "name" (some "a"), leaf "type" (some "host"), leaf "address" (some "10.0.0.1"), leaf "descr" none],
     .mk "alias" none [leaf "name" (some "a"), leaf "type" (some "network"), leaf "address" (some "10.0.0.0/8"), leaf "descr" none]],
   .mk "interfaces" none [.mk "wan" none [leaf "if" (some "em0")]],
   .mk "filter" none [.mk "rule" none [leaf "type" (some "block"), leaf "interface" (some "wan"), leaf "descr" none]],
   .mk "system" none [leaf "hostname" (some "fw"), leaf "domain" (some "example.org")]]

/-- The hypothesis of C61 is met. -/
theorem C61_sample : ∃ p, parse sampleEnv sampleConfig = .ok p ∧ p.rules.length = 2 ∧ p.groups.length = 2 := by
  cases h : parse sampleEnv sampleConfig with
  | ok p =>
    obtain ⟨-, h1, -, ⟨t, -, h2⟩, -⟩ := C61_configuration _ _ _ h
    refine ⟨p, rfl, ?_, ?_⟩
    · have : ∀ {α β : Type} {R : α → β → Prop} {l : List α} {m : List β}, All2 R l m → m.length = l.length := by
        intro α β R l m h; induction h with
        | nil => rfl
        | cons _ _ ih => simp [ih]
      rw [this h2]; rfl
    · have : ∀ {α β : Type} {R : α → β → Prop} {l : List α} {m : List β}, All2 R l m → m.length = l.length := by
        intro α β R l m h; induction h with
        | nil => rfl
        | cons _ _ ih => simp [ih]
      rw [this h1]; rfl
  | error e =>
    exfalso
    have : (match parse sampleEnv sampleConfig with | .ok _ => true | .error _ => false) = true := by decide +kernel
    rw [h] at this
    cases this

end Acltk.Pf
