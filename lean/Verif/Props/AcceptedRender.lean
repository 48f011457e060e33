import Verif.Props.AcceptedExpand
import Verif.Props.PfRender
/-!
# C90 for whatever texts are accepted
-/
namespace Acltk.Accepted
open Acltk Acltk.Lookup Acltk.Detect Acltk.DetectText Acltk.Caf Acltk.Resolve Acltk.ExpandFilter
open Acltk.ConfigFilter (Holds StatedNat select)

variable {T : Type}

/-- The list a rule belongs to; a NAT entry belongs to none. -/
def listOf : Entry → Option String
  | .rule r => r.id
  | .nat _ => none

/-- The heap holds the rules and NAT entries of the configuration — every rule has a protocol with a name and every NAT entry
both of its sides — and refers to finitely many objects. -/
structure HoldsCfg (info : Oid → Info) (cfg : Cfg (Nat × Pf.Parsed T)) (U : List El) : Prop where
  rule : ∀ k x, RuleAt cfg k x → ∃ r n, info k = .rule r ∧ r.id = listOf x ∧ r.protoName = some n
  nat : ∀ k x, NatAt cfg k x → ∃ a b, info k = .nat (some a) (some b)
  all : ∀ k x, RuleAt cfg k x ∨ NatAt cfg k x → .obj k ∈ U
  fields : ∀ k x y, RuleAt cfg k x ∨ NatAt cfg k x → Field info k y → y ∈ U
  pulls : ∀ o y, .obj o ∈ U → Pulls info o y → y ∈ U

/-- An interface of the configuration uses that list, in the table the configuration keeps: only IOS configurations have one. -/
def InUse : Cfg (Nat × Pf.Parsed T) → String → Prop
  | .ios items, n => ∃ u ∈ IosConfig.Uses items, u.2.2.1 = n
  | _, _ => False

theorem keys_inUse (cfg : Cfg (Nat × Pf.Parsed T)) (n : String) : n ∈ Render.keys cfg ↔ InUse cfg n := by
  cases cfg with
  | fwsm items =>
    show n ∈ Render.fwsmKeys items ↔ False
    rw [Render.fwsm_keys]; simp
  | ios items => exact Render.ios_keys items n
  | pfsense c =>
    show n ∈ Render.pfKeys c ↔ False
    rw [Render.pf_keys]; simp

theorem closure_congr {info : Oid → Info} {l l' : List El} (h : ∀ y, y ∈ l ↔ y ∈ l') (x : El) : Closure info l x ↔ Closure info l' x := by
  constructor
  · intro hx
    induction hx with
    | selected hm => exact .selected ((h _).1 hm)
    | field hm hf => exact .field ((h _).1 hm) hf
    | pull _ hp ih => exact .pull ih hp
  · intro hx
    induction hx with
    | selected hm => exact .selected ((h _).2 hm)
    | field hm hf => exact .field ((h _).2 hm) hf
    | pull _ hp ih => exact .pull ih hp

/-- What `resolve` makes of any selection of rules and NAT entries of a configuration. -/
theorem resolve_entries {info : Oid → Info} {cfg : Cfg (Nat × Pf.Parsed T)} {U : List El} (hU : HoldsCfg info cfg U)
    (order0 : List El → List El) (order : Nat → List El → List El)
    (h0 : ∀ r x, x ∈ order0 r ↔ x ∈ r) (hord : ∀ n r x, x ∈ order n r ↔ x ∈ r)
    {r : List Oid} (hr : ∀ k ∈ r, ∃ x, RuleAt cfg k x ∨ NatAt cfg k x) {rounds : Nat} (hro : U.length < rounds) :
    ((∃ err, resolve info (Render.keys cfg) rounds order0 order (r.map .obj) = .error err) ↔
      ∃ k x s, k ∈ r ∧ RuleAt cfg k x ∧ listOf x = some s ∧ InUse cfg s) ∧
    ∀ v, resolve info (Render.keys cfg) rounds order0 order (r.map .obj) = .ok v →
      ∃ res, v = some res ∧ ∀ x, x ∈ res ↔ Closure info (r.map .obj) x := by
  have hfin : FiniteGraph info (r.map .obj) U := by
    refine ⟨?_, ?_, fun o x => hU.pulls o x⟩
    · intro y hy
      obtain ⟨k, hk, rfl⟩ := List.mem_map.1 hy
      obtain ⟨x, hx⟩ := hr k hk
      exact hU.all k x hx
    · intro o y ho hy
      obtain ⟨k, hk, he⟩ := List.mem_map.1 ho
      cases he
      obtain ⟨x, hx⟩ := hr o hk
      exact hU.fields o x y hx hy
  have hbad : (∃ x ∈ r.map El.obj, Unresolvable info (Render.keys cfg) x) ↔
      ∃ k x s, k ∈ r ∧ RuleAt cfg k x ∧ listOf x = some s ∧ InUse cfg s := by
    constructor
    · rintro ⟨y, hy, o, rfl, hb⟩
      obtain ⟨k, hk, he⟩ := List.mem_map.1 hy
      cases he
      obtain ⟨x, hx | hx⟩ := hr o hk
      · obtain ⟨r1, p, e1, e2, e3⟩ := hU.rule o x hx
        rcases hb with ⟨r2, e4, e5 | ⟨s, hs, e5⟩⟩ | ⟨a, b, e4, -⟩
        · rw [e1] at e4; cases e4; rw [e3] at e5; cases e5
        · rw [e1] at e4; cases e4
          exact ⟨o, x, s, hk, hx, by rw [← e2, e5], (keys_inUse cfg s).1 hs⟩
        · rw [e1] at e4; cases e4
      · obtain ⟨a, b, e1⟩ := hU.nat o x hx
        rcases hb with ⟨r2, e4, -⟩ | ⟨a', b', e4, e5⟩
        · rw [e1] at e4; cases e4
        · rw [e1] at e4; cases e4; rcases e5 with e5 | e5 <;> cases e5
    · rintro ⟨k, x, s, hk, hx, hs, hu⟩
      obtain ⟨r1, p, e1, e2, e3⟩ := hU.rule k x hx
      exact ⟨_, List.mem_map.2 ⟨k, hk, rfl⟩, k, rfl, Or.inl ⟨r1, e1, Or.inr ⟨s, (keys_inUse cfg s).2 hu, by rw [e2, hs]⟩⟩⟩
  constructor
  · rw [C44_raises_iff_partial _ _ _ order0 order h0, hbad]
  · intro v hv
    by_cases hx : ∃ x ∈ r.map El.obj, Unresolvable info (Render.keys cfg) x
    · obtain ⟨err, he⟩ := (C44_raises_iff_partial _ _ _ order0 order h0 rounds).2 hx
      rw [he] at hv; cases hv
    · obtain ⟨res, j1, j2⟩ := C43_resolve_is_closure info (Render.keys cfg) (r.map .obj) U hfin order0 order h0 hord
        (fun x hm hb => hx ⟨x, hm, hb⟩) rounds (by omega)
      rw [j1] at hv
      cases hv
      exact ⟨res, rfl, j2⟩

/-- **C90**, for whatever filter text and whatever configuration text are accepted, of any kind: given enough stack the filter delivers a
selection, and `resolve` raises exactly if a rule of it belongs to a list that an interface of an IOS configuration uses;
otherwise its result is the closure of the selection.  (What is selected is the subject of C93.) -/
theorem C90_accepted_texts_partial (g : Guard) (xml : String → Option Pf.Elem) (v : Pf.Env T) (n : Nat)
    (filter rest : List Char) (e : Expr) (hf : CafText.parse g n filter = .ok e rest)
    (config : String) (cfg : Cfg (Nat × Pf.Parsed T)) (hc : detect g (PfFilter.parser xml v) config = .config cfg)
    (info : Oid → Info) (U : List El) (hU : HoldsCfg info cfg U)
    (order0 : List El → List El) (order : Nat → List El → List El)
    (h0 : ∀ r x, x ∈ order0 r ↔ x ∈ r) (hord : ∀ n r x, x ∈ order n r ↔ x ∈ r) :
    ∃ N, ∀ fuel rounds, N ≤ fuel → N ≤ rounds → ∃ r,
      select g (PfFilter.parser xml v) (PfFilter.filter fuel) n fuel filter config = some (.ok r) ∧
      ((∃ err, resolve info (Render.keys cfg) rounds order0 order (r.map .obj) = .error err) ↔
        ∃ k x s, k ∈ r ∧ RuleAt cfg k x ∧ listOf x = some s ∧ InUse cfg s) ∧
      ∀ w, resolve info (Render.keys cfg) rounds order0 order (r.map .obj) = .ok w →
        ∃ res, w = some res ∧ ∀ x, x ∈ res ↔ Closure info (r.map .obj) x := by
  obtain ⟨c, ws, -, -, N, h⟩ := C93_accepted_texts_are_filtered g xml v n filter rest e hf config cfg hc
  refine ⟨N + U.length + 1, fun fuel rounds h1 h2 => ?_⟩
  obtain ⟨r, i1, -, i3, -⟩ := (h fuel (by omega)).2
  exact ⟨r, i1, resolve_entries hU order0 order h0 hord i3 (by omega)⟩

/-! ## a sample -/

/-- Objects for a configuration of any kind: each rule has one of its own. -/
def sampleInfo : Cfg (Nat × Pf.Parsed T) → Oid → Info
  | .fwsm items => Render.sampleHeaps.fwsm items
  | .ios items => Render.sampleHeaps.ios items
  | .pfsense c => Render.pfSampleHeap c

theorem sample_holds (cfg : Cfg (Nat × Pf.Parsed T)) : ∃ U, HoldsCfg (sampleInfo cfg) cfg U := by
  cases cfg with
  | fwsm items =>
    obtain ⟨U, h⟩ := Render.sample_fwsm items
    have hlt : ∀ {k x}, RuleAt (T := T) (.fwsm items) k x ∨ NatAt (T := T) (.fwsm items) k x → k < items.length := by
      rintro k x (⟨r, e, -⟩ | ⟨i, n, e, -⟩) <;> exact (List.getElem?_eq_some_iff.1 e).1
    refine ⟨U, ?_, ?_, fun k x hx => h.all k (hlt hx), fun k x y hx => h.fields k y (hlt hx), h.pulls⟩
    · rintro k x ⟨r, e, rfl⟩
      exact h.rule k r e
    · rintro k x ⟨i, n, e, hn, rfl⟩
      exact h.nat k i n e hn
  | ios items =>
    obtain ⟨U, h⟩ := Render.sample_ios items
    have hlt : ∀ {k x}, RuleAt (T := T) (.ios items) k x ∨ NatAt (T := T) (.ios items) k x → k < (IosText.rulesOf items).length := by
      rintro k x (⟨r, e, -⟩ | hf)
      · exact (List.getElem?_eq_some_iff.1 e).1
      · exact hf.elim
    refine ⟨U, ?_, fun k x hx => hx.elim, fun k x hx => h.all k (hlt hx), fun k x y hx => h.fields k y (hlt hx), h.pulls⟩
    rintro k x ⟨r, e, rfl⟩
    exact h.rule k r e
  | pfsense c =>
    obtain ⟨U, h⟩ := Render.pf_sample_holds c
    have hlt : ∀ {k x}, RuleAt (T := T) (.pfsense c) k x ∨ NatAt (T := T) (.pfsense c) k x → k < c.2.rules.length := by
      rintro k x (⟨r, e, -⟩ | hf)
      · exact (List.getElem?_eq_some_iff.1 e).1
      · exact hf.elim
    refine ⟨U, ?_, fun k x hx => hx.elim, fun k x hx => h.all k (hlt hx), fun k x y hx => h.fields k y (hlt hx), h.pulls⟩
    rintro k x ⟨r, e, rfl⟩
    exact h.rule k r e

/-- The hypotheses are met by the texts of the sample of C93, which have a rule. -/
theorem C90_accepted_sample (xml : String → Option Pf.Elem) (v : Pf.Env T) :
    (∃ e r, CafText.parse tatsuGuard 6 sampleFilter = .ok e r) ∧
    ∃ i r l, detect tatsuGuard (PfFilter.parser xml v) (String.ofList sampleConfig) = .config (.fwsm (i :: .rule r :: l)) ∧
      ∃ U, HoldsCfg (T := T) (sampleInfo (T := T) (.fwsm (i :: .rule r :: l))) (.fwsm (i :: .rule r :: l)) U := by
  obtain ⟨h1, i, r, l, h2⟩ := C93_sample (PfFilter.parser xml v)
  exact ⟨h1, i, r, l, h2, sample_holds _⟩

end Acltk.Accepted
